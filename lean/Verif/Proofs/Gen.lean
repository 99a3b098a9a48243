import Verif.Proofs.De
import Verif.Spec.Built
/-! # Lemmas about every decoder -/

namespace Xdr

/-- A smaller generating set for the class `Built`. -/
inductive Gen : {α : Type} → De α → Prop
  | pure {α : Type} (a : α) : Gen (pure a : De α)
  | fail {α : Type} (e : Error) : (∀ k, e ≠ .notEnoughData k) →
      (∀ k, e ≠ .trailingData k) → Gen (M.fail e : De α)
  | panic {α : Type} (p : PanicSite) : Gen (M.panic p : De α)
  | depth {α : Type} : Gen (M.depth : De α)
  | bind {α β : Type} {m : De α} {f : α → De β} : Gen m → (∀ a, Gen (f a)) → Gen (m >>= f)
  | u32 : Gen read_u32
  | u64 : Gen read_u64
  | string : Gen read_string
  | bytes : Gen read_bytes

theorem Gen.i32 : Gen read_i32 := by
  rw [read_i32_eq]; exact .bind .u32 fun _ => .pure _

theorem Gen.i64 : Gen read_i64 := by
  rw [read_i64_eq]; exact .bind .u64 fun _ => .pure _

theorem Gen.char : Gen read_char := by
  unfold read_char
  refine .bind .u32 fun c => ?_
  split
  · exact .pure _
  · exact .fail _ (by simp) (by simp)

theorem Built.gen {α : Type} {d : De α} (h : Built d) : Gen d := by
  induction h with
  | pure a => exact .pure a
  | custom m => exact .fail _ (by simp) (by simp)
  | panic p => exact .panic p
  | depth => exact .depth
  | bind _ _ h1 h2 => exact .bind h1 h2
  | any => exact .fail _ (by simp) (by simp)
  | ignored_any => exact .fail _ (by simp) (by simp)
  | i128 => exact .fail _ (by simp) (by simp)
  | u128 => exact .fail _ (by simp) (by simp)
  | bool _ h => exact .bind .u32 fun _ => h _
  | i8 _ h => exact .bind .i32 fun _ => h _
  | i16 _ h => exact .bind .i32 fun _ => h _
  | i32 _ h => exact .bind .i32 fun _ => h _
  | i64 _ h => exact .bind .i64 fun _ => h _
  | u8 _ h => exact .bind .u32 fun _ => h _
  | u16 _ h => exact .bind .u32 fun _ => h _
  | u32 _ h => exact .bind .u32 fun _ => h _
  | u64 _ h => exact .bind .u64 fun _ => h _
  | f32 _ h => exact .bind .u32 fun _ => h _
  | f64 _ h => exact .bind .u64 fun _ => h _
  | char _ h => exact .bind .char fun _ => h _
  | str _ h => exact .bind .string fun _ => h _
  | string _ h => exact .bind .string fun _ => h _
  | identifier _ h => exact .bind .string fun _ => h _
  | bytes _ h => exact .bind .bytes fun _ => h _
  | byte_buf _ h => exact .bind .bytes fun _ => h _
  | option _ _ h1 h2 =>
    refine .bind .u32 fun c => ?_
    split
    · exact h1
    · exact h2
  | unit _ h => exact h
  | unit_struct _ h => exact h
  | newtype_struct _ h => exact h
  | seq _ h => exact .bind .u32 fun _ => h _
  | tuple _ h => exact h _
  | tuple_struct _ h => exact h _
  | map _ h => exact .bind .u32 fun _ => h _
  | struct _ h => exact h _
  | enum _ h => exact h
  | next_element _ h =>
    unfold Seq.next_element
    split
    · exact .pure _
    · exact .bind h fun _ => .pure _
  | next_key _ h =>
    unfold MapAcc.next_key
    split
    · exact .pure _
    · exact .bind h fun _ => .pure _
  | next_value _ h => exact h
  | variant_seed _ h =>
    refine .bind .i32 fun i => ?_
    split
    · exact .fail _ (by simp) (by simp)
    · exact h _
  | unit_variant => exact .pure _
  | newtype_variant _ h => exact h
  | tuple_variant _ h => exact h _
  | struct_variant _ h => exact h _

/-! ## Locality -/

theorem read_u32_ok {input rest : Bytes} {v : UInt32} (h : read_u32 input = .ok (v, rest)) :
    ∃ a b c d, input = a :: b :: c :: d :: rest ∧ v = ofBe32 a b c d := by
  by_cases hl : input.length < 4
  · rw [read_u32_lt hl] at h; simp at h
  · obtain ⟨a, b, c, d, r, rfl⟩ := exists_word (Nat.not_lt.mp hl)
    rw [read_u32_cons] at h
    simp only [Res.ok.injEq, Prod.mk.injEq] at h
    exact ⟨a, b, c, d, by rw [h.2], h.1.symm⟩

theorem read_u64_ok {input rest : Bytes} {v : UInt64} (h : read_u64 input = .ok (v, rest)) :
    ∃ a b c d e f g i, input = a :: b :: c :: d :: e :: f :: g :: i :: rest ∧
      v = ofBe64 a b c d e f g i := by
  by_cases hl : input.length < 8
  · rw [read_u64_lt hl] at h; simp at h
  · obtain ⟨a, b, c, d, e, f, g, i, r, rfl⟩ := exists_dword (Nat.not_lt.mp hl)
    rw [read_u64_cons] at h
    simp only [Res.ok.injEq, Prod.mk.injEq] at h
    exact ⟨a, b, c, d, e, f, g, i, by rw [h.2], h.1.symm⟩

theorem read_bytes_lt {input : Bytes} (h : input.length < 4) :
    read_bytes input = .err (.notEnoughData (4 - input.length)) := by
  rw [read_bytes, M.bind_err (read_u32_lt h)]

theorem read_string_lt {input : Bytes} (h : input.length < 4) :
    read_string input = .err (.notEnoughData (4 - input.length)) := by
  rw [read_string, M.bind_err (read_u32_lt h)]

theorem take_take_pad (r : Bytes) {n p : Nat} : (r.take (n + p)).take n = r.take n := by
  rw [List.take_take, Nat.min_eq_left (Nat.le_add_right n p)]

theorem reads_bytes_take {a b c d : UInt8} {r : Bytes} {n : Nat}
    (hn : (ofBe32 a b c d).toNat = n) (h2 : n + padLen n ≤ r.length) :
    Reads read_bytes ([a, b, c, d] ++ r.take (n + padLen n)) (r.take n) := by
  intro r'
  simp only [List.cons_append, List.nil_append]
  have e2 : (r.take (n + padLen n)).length = n + padLen n := by rw [List.length_take]; omega
  have e1 : (r.take (n + padLen n) ++ r').take n = r.take n := by
    rw [List.take_append_of_le_length (by omega), take_take_pad]
  have e3 : (r.take (n + padLen n) ++ r').drop (n + padLen n) = r' := by
    rw [List.drop_append, e2, Nat.sub_self, List.drop_eq_nil_of_le (by omega)]; simp
  rw [read_bytes_run a b c d _ n hn, e1, e3, List.length_append, e2]
  rw [if_neg (by omega), if_neg (by omega)]

theorem reads_string_take {a b c d : UInt8} {r : Bytes} {n : Nat} {s : List Char}
    (hn : (ofBe32 a b c d).toNat = n) (h2 : n + padLen n ≤ r.length)
    (hs : utf8Decode (r.take n) = some s) :
    Reads read_string ([a, b, c, d] ++ r.take (n + padLen n)) s := by
  intro r'
  simp only [List.cons_append, List.nil_append]
  have e2 : (r.take (n + padLen n)).length = n + padLen n := by rw [List.length_take]; omega
  have e1 : (r.take (n + padLen n) ++ r').take n = r.take n := by
    rw [List.take_append_of_le_length (by omega), take_take_pad]
  have e3 : (r.take (n + padLen n) ++ r').drop (n + padLen n) = r' := by
    rw [List.drop_append, e2, Nat.sub_self, List.drop_eq_nil_of_le (by omega)]; simp
  rw [read_string_run a b c d _ n hn, e1, e3, List.length_append, e2, hs]
  rw [if_neg (by omega)]
  simp only []
  rw [if_neg (by omega)]

theorem used_take {a b c d : UInt8} {r : Bytes} {n : Nat} (h2 : n + padLen n ≤ r.length) :
    a :: b :: c :: d :: r = [a, b, c, d] ++ r.take (n + padLen n) ++ r.drop (n + padLen n) ∧
    ([a, b, c, d] ++ r.take (n + padLen n)).length % 4 = 0 := by
  refine ⟨?_, ?_⟩
  · rw [List.append_assoc, List.take_append_drop]; simp only [List.cons_append, List.nil_append]
  · have := padLen_add n
    rw [List.length_append, List.length_take, Nat.min_eq_left h2]
    simp only [List.length_cons, List.length_nil]
    omega

/-- On success the consumed bytes are a 4-aligned prefix, and the result depends on them only. -/
theorem Gen.local {α : Type} {d : De α} (h : Gen d) {input rest : Bytes} {v : α}
    (hr : d input = .ok (v, rest)) :
    ∃ used, input = used ++ rest ∧ used.length % 4 = 0 ∧ Reads d used v := by
  induction h generalizing input rest with
  | pure a =>
    simp only [M.pure_run, Res.ok.injEq, Prod.mk.injEq] at hr
    obtain ⟨rfl, rfl⟩ := hr
    exact ⟨[], rfl, by simp, Reads.pure _⟩
  | fail e _ _ => simp at hr
  | panic p => simp at hr
  | depth => simp at hr
  | bind _ _ h1 h2 =>
    obtain ⟨a, mid, e1, e2⟩ := M.bind_eq_ok.mp hr
    obtain ⟨u1, rfl, hl1, hu1⟩ := h1 e1
    obtain ⟨u2, rfl, hl2, hu2⟩ := h2 a e2
    exact ⟨u1 ++ u2, by simp, by simp; omega, hu1.bind hu2⟩
  | u32 =>
    obtain ⟨a, b, c, d, rfl, rfl⟩ := read_u32_ok hr
    exact ⟨[a, b, c, d], rfl, by simp, fun r => by simp only [List.cons_append, List.nil_append]; exact read_u32_cons ..⟩
  | u64 =>
    obtain ⟨a, b, c, d, e, f, g, i, rfl, rfl⟩ := read_u64_ok hr
    exact ⟨[a, b, c, d, e, f, g, i], rfl, by simp, fun r => by simp only [List.cons_append, List.nil_append]; exact read_u64_cons ..⟩
  | string =>
    by_cases hl : input.length < 4
    · rw [read_string_lt hl] at hr; simp at hr
    · obtain ⟨a, b, c, d, r, rfl⟩ := exists_word (Nat.not_lt.mp hl)
      generalize hn : (ofBe32 a b c d).toNat = n
      rw [read_string_run a b c d r n hn] at hr
      split at hr
      · simp at hr
      split at hr
      · simp at hr
      split at hr
      · simp at hr
      rename_i hs h2
      simp only [Res.ok.injEq, Prod.mk.injEq] at hr
      obtain ⟨rfl, rfl⟩ := hr
      have h3 := Nat.not_lt.mp h2
      exact ⟨_, (used_take h3).1, (used_take h3).2, reads_string_take hn h3 hs⟩
  | bytes =>
    by_cases hl : input.length < 4
    · rw [read_bytes_lt hl] at hr; simp at hr
    · obtain ⟨a, b, c, d, r, rfl⟩ := exists_word (Nat.not_lt.mp hl)
      generalize hn : (ofBe32 a b c d).toNat = n
      rw [read_bytes_run a b c d r n hn] at hr
      split at hr
      · simp at hr
      split at hr
      · simp at hr
      rename_i h2
      simp only [Res.ok.injEq, Prod.mk.injEq] at hr
      obtain ⟨rfl, rfl⟩ := hr
      have h3 := Nat.not_lt.mp h2
      exact ⟨_, (used_take h3).1, (used_take h3).2, reads_bytes_take hn h3⟩

/-! ## Failures and more input -/

/-- Errors other than `NotEnoughData` do not depend on what follows. -/
theorem Gen.errFinal {α : Type} {d : De α} (h : Gen d) {input : Bytes} {e : Error}
    (hr : d input = .err e) (he : ∀ k, e ≠ .notEnoughData k) (more : Bytes) :
    d (input ++ more) = .err e := by
  induction h generalizing input with
  | pure a => simp at hr
  | fail e' _ _ => simpa using hr
  | panic p => simp at hr
  | depth => simp at hr
  | @bind α β m f hm _ h1 h2 =>
    rw [M.bind_run] at hr
    cases hmi : m input with
    | ok p =>
      obtain ⟨a, mid⟩ := p
      rw [hmi] at hr
      obtain ⟨u, rfl, _, hu⟩ := hm.local hmi
      rw [List.append_assoc, M.bind_ok (hu _)]
      exact h2 a hr
    | err e' =>
      rw [hmi] at hr
      simp only [Res.err.injEq] at hr
      subst hr
      rw [M.bind_err (h1 hmi)]
    | panic p => rw [hmi] at hr; simp at hr
    | depth => rw [hmi] at hr; simp at hr
  | u32 =>
    by_cases hl : input.length < 4
    · rw [read_u32_lt hl] at hr; simp only [Res.err.injEq] at hr; exact absurd hr.symm (he _)
    · obtain ⟨a, b, c, d, r, rfl⟩ := exists_word (Nat.not_lt.mp hl)
      rw [read_u32_cons] at hr; simp at hr
  | u64 =>
    by_cases hl : input.length < 8
    · rw [read_u64_lt hl] at hr; simp only [Res.err.injEq] at hr; exact absurd hr.symm (he _)
    · obtain ⟨a, b, c, d, _, _, _, _, r, rfl⟩ := exists_dword (Nat.not_lt.mp hl)
      rw [read_u64_cons] at hr; simp at hr
  | string =>
    by_cases hl : input.length < 4
    · rw [read_string_lt hl] at hr; simp only [Res.err.injEq] at hr; exact absurd hr.symm (he _)
    · obtain ⟨a, b, c, d, r, rfl⟩ := exists_word (Nat.not_lt.mp hl)
      generalize hn : (ofBe32 a b c d).toNat = n
      rw [read_string_run a b c d r n hn] at hr
      split at hr
      · simp only [Res.err.injEq] at hr; exact absurd hr.symm (he _)
      split at hr
      · simp only [Res.err.injEq] at hr; subst hr
        rename_i h1 h2
        simp only [List.cons_append]
        rw [read_string_run a b c d _ n hn, if_neg (by simp; omega),
          List.take_append_of_le_length (by omega), h2]
      split at hr <;> simp at hr
  | bytes =>
    by_cases hl : input.length < 4
    · rw [read_bytes_lt hl] at hr; simp only [Res.err.injEq] at hr; exact absurd hr.symm (he _)
    · obtain ⟨a, b, c, d, r, rfl⟩ := exists_word (Nat.not_lt.mp hl)
      generalize hn : (ofBe32 a b c d).toNat = n
      rw [read_bytes_run a b c d r n hn] at hr
      split at hr
      · simp only [Res.err.injEq] at hr; exact absurd hr.symm (he _)
      split at hr <;> simp at hr

/-- `NotEnoughData(k)`: `k` more bytes are really needed. -/
theorem Gen.missing {α : Type} {d : De α} (h : Gen d) {input : Bytes} {k : Nat}
    (hr : d input = .err (.notEnoughData k)) :
    0 < k ∧ ∀ more : Bytes, more.length < k →
      d (input ++ more) = .err (.notEnoughData (k - more.length)) := by
  induction h generalizing input with
  | pure a => simp at hr
  | fail e' h' _ => simp only [M.fail_run, Res.err.injEq] at hr; exact absurd hr (h' _)
  | panic p => simp at hr
  | depth => simp at hr
  | @bind α β m f hm _ h1 h2 =>
    rw [M.bind_run] at hr
    cases hmi : m input with
    | ok p =>
      obtain ⟨a, mid⟩ := p
      rw [hmi] at hr
      obtain ⟨u, rfl, _, hu⟩ := hm.local hmi
      obtain ⟨hk, hm'⟩ := h2 a hr
      refine ⟨hk, fun more hmore => ?_⟩
      rw [List.append_assoc, M.bind_ok (hu _)]
      exact hm' more hmore
    | err e' =>
      rw [hmi] at hr
      simp only [Res.err.injEq] at hr
      subst hr
      obtain ⟨hk, hm'⟩ := h1 hmi
      refine ⟨hk, fun more hmore => ?_⟩
      rw [M.bind_err (hm' more hmore)]
    | panic p => rw [hmi] at hr; simp at hr
    | depth => rw [hmi] at hr; simp at hr
  | u32 =>
    by_cases hl : input.length < 4
    · rw [read_u32_lt hl] at hr
      simp only [Res.err.injEq, Error.notEnoughData.injEq] at hr; subst hr
      refine ⟨by omega, fun more hmore => ?_⟩
      rw [read_u32_lt (by simp; omega)]
      congr 2; simp; omega
    · obtain ⟨a, b, c, d, r, rfl⟩ := exists_word (Nat.not_lt.mp hl)
      rw [read_u32_cons] at hr; simp at hr
  | u64 =>
    by_cases hl : input.length < 8
    · rw [read_u64_lt hl] at hr
      simp only [Res.err.injEq, Error.notEnoughData.injEq] at hr; subst hr
      refine ⟨by omega, fun more hmore => ?_⟩
      rw [read_u64_lt (by simp; omega)]
      congr 2; simp; omega
    · obtain ⟨a, b, c, d, _, _, _, _, r, rfl⟩ := exists_dword (Nat.not_lt.mp hl)
      rw [read_u64_cons] at hr; simp at hr
  | string =>
    by_cases hl : input.length < 4
    · rw [read_string_lt hl] at hr
      simp only [Res.err.injEq, Error.notEnoughData.injEq] at hr; subst hr
      refine ⟨by omega, fun more hmore => ?_⟩
      rw [read_string_lt (by simp; omega)]
      congr 2; simp; omega
    · obtain ⟨a, b, c, d, r, rfl⟩ := exists_word (Nat.not_lt.mp hl)
      generalize hn : (ofBe32 a b c d).toNat = n
      rw [read_string_run a b c d r n hn] at hr
      split at hr
      · simp only [Res.err.injEq, Error.notEnoughData.injEq] at hr; subst hr
        refine ⟨by omega, fun more hmore => ?_⟩
        simp only [List.cons_append]
        rw [read_string_run a b c d _ n hn, if_pos (by simp; omega)]
        congr 2; simp; omega
      split at hr
      · simp at hr
      split at hr <;> simp at hr
  | bytes =>
    by_cases hl : input.length < 4
    · rw [read_bytes_lt hl] at hr
      simp only [Res.err.injEq, Error.notEnoughData.injEq] at hr; subst hr
      refine ⟨by omega, fun more hmore => ?_⟩
      rw [read_bytes_lt (by simp; omega)]
      congr 2; simp; omega
    · obtain ⟨a, b, c, d, r, rfl⟩ := exists_word (Nat.not_lt.mp hl)
      generalize hn : (ofBe32 a b c d).toNat = n
      rw [read_bytes_run a b c d r n hn] at hr
      split at hr
      · simp only [Res.err.injEq, Error.notEnoughData.injEq] at hr; subst hr
        refine ⟨by omega, fun more hmore => ?_⟩
        simp only [List.cons_append]
        rw [read_bytes_run a b c d _ n hn, if_pos (by simp; omega)]
        congr 2; simp; omega
      split at hr <;> simp at hr

/-- Decoders do not raise `TrailingData`. -/
theorem Gen.noTrailing {α : Type} {d : De α} (h : Gen d) (input : Bytes) (k : Nat) :
    d input ≠ .err (.trailingData k) := by
  induction h generalizing input with
  | pure a => simp
  | fail e' _ h' => intro h; simp only [M.fail_run, Res.err.injEq] at h; exact h' _ h
  | panic p => simp
  | depth => simp
  | @bind α β m f hm _ h1 h2 =>
    rw [M.bind_run]
    cases hmi : m input with
    | ok p => exact h2 _ _
    | err e' =>
      simp only [ne_eq, Res.err.injEq]
      intro h; subst h; exact h1 _ hmi
    | panic p => simp
    | depth => simp
  | u32 =>
    by_cases hl : input.length < 4
    · rw [read_u32_lt hl]; simp
    · obtain ⟨a, b, c, d, r, rfl⟩ := exists_word (Nat.not_lt.mp hl)
      rw [read_u32_cons]; simp
  | u64 =>
    by_cases hl : input.length < 8
    · rw [read_u64_lt hl]; simp
    · obtain ⟨a, b, c, d, _, _, _, _, r, rfl⟩ := exists_dword (Nat.not_lt.mp hl)
      rw [read_u64_cons]; simp
  | string =>
    by_cases hl : input.length < 4
    · rw [read_string_lt hl]; simp
    · obtain ⟨a, b, c, d, r, rfl⟩ := exists_word (Nat.not_lt.mp hl)
      rw [read_string_run a b c d r _ rfl]
      split
      · simp
      split
      · simp
      split <;> simp
  | bytes =>
    by_cases hl : input.length < 4
    · rw [read_bytes_lt hl]; simp
    · obtain ⟨a, b, c, d, r, rfl⟩ := exists_word (Nat.not_lt.mp hl)
      rw [read_bytes_run a b c d r _ rfl]
      split
      · simp
      split <;> simp

/-! ## Truncation -/

/-- What a truncated read gives. -/
def Short {α : Type} (pre : Bytes) (r : Res (α × Bytes)) : Prop :=
  (∃ k, r = .err (.notEnoughData k)) ∨ (r = .panic .paddingSlice ∧ pre.length % 4 ≠ 0)

theorem Short.bind {α β : Type} {m : De α} {f : α → De β} {input : Bytes} (h : Short input (m input)) :
    Short input ((m >>= f) input) := by
  rcases h with ⟨k, hk⟩ | ⟨hp, hl⟩
  · exact .inl ⟨k, M.bind_err hk⟩
  · exact .inr ⟨M.bind_panic hp, hl⟩

theorem append_eq_append_cases {a b c d : Bytes} (h : a ++ b = c ++ d) :
    (∃ e, c = a ++ e ∧ b = e ++ d) ∨ (∃ e, a = c ++ e ∧ d = e ++ b) := by
  rcases List.append_eq_append_iff.mp h with ⟨e, h1, h2⟩ | ⟨e, h1, h2⟩
  · exact .inl ⟨e, h1, h2⟩
  · exact .inr ⟨e, h1, h2⟩

/-- A decoder fails on every proper prefix of what it consumes, with `NotEnoughData` or the padding
panic. -/
theorem Gen.prefix {α : Type} {d : De α} (h : Gen d) {pre tail : Bytes} {v : α}
    (hr : d (pre ++ tail) = .ok (v, [])) (ht : tail ≠ []) : Short pre (d pre) := by
  induction h generalizing pre tail with
  | pure a =>
    simp only [M.pure_run, Res.ok.injEq, Prod.mk.injEq, List.append_eq_nil_iff] at hr
    exact absurd hr.2.2 ht
  | fail e _ _ => simp at hr
  | panic p => simp at hr
  | depth => simp at hr
  | @bind α β m f hm _ h1 h2 =>
    obtain ⟨a, mid, e1, e2⟩ := M.bind_eq_ok.mp hr
    obtain ⟨u, hu, hul, hru⟩ := hm.local e1
    rcases append_eq_append_cases hu with ⟨e, rfl, he⟩ | ⟨e, rfl, he⟩
    · by_cases hen : e = []
      · subst hen
        simp only [List.append_nil] at hru
        simp only [List.nil_append] at he
        have hm0 : m pre = .ok (a, []) := by simpa using hru []
        rw [M.bind_ok hm0]
        subst he
        rcases h2 a (pre := []) (tail := tail) e2 ht with h | h
        · exact .inl h
        · exact absurd rfl h.2
      · have := hru []
        rw [List.append_nil] at this
        exact (h1 this hen).bind
    · rw [M.bind_ok (hru e)]
      rw [he] at e2
      rcases h2 a e2 ht with h | ⟨h, h'⟩
      · exact .inl h
      · refine .inr ⟨h, ?_⟩
        rw [List.length_append]; omega
  | u32 =>
    obtain ⟨a, b, c, d, h', _⟩ := read_u32_ok hr
    have hl := congrArg List.length h'
    have : tail.length ≠ 0 := by simpa using ht
    simp only [List.length_append, List.length_cons, List.length_nil] at hl
    exact .inl ⟨_, read_u32_lt (by omega)⟩
  | u64 =>
    obtain ⟨a, b, c, d, _, _, _, _, h', _⟩ := read_u64_ok hr
    have hl := congrArg List.length h'
    have : tail.length ≠ 0 := by simpa using ht
    simp only [List.length_append, List.length_cons, List.length_nil] at hl
    exact .inl ⟨_, read_u64_lt (by omega)⟩
  | string =>
    have ht' : tail.length ≠ 0 := by simpa using ht
    by_cases hl : pre.length < 4
    · exact .inl ⟨_, read_string_lt hl⟩
    · obtain ⟨a, b, c, d, r, rfl⟩ := exists_word (Nat.not_lt.mp hl)
      generalize hn : (ofBe32 a b c d).toNat = n
      simp only [List.cons_append] at hr
      rw [read_string_run a b c d _ n hn] at hr
      rw [read_string_run a b c d _ n hn]
      split at hr
      · simp at hr
      split at hr
      · simp at hr
      split at hr
      · simp at hr
      rename_i hs h2
      simp only [Res.ok.injEq, Prod.mk.injEq, List.drop_eq_nil_iff, List.length_append] at hr
      simp only [List.length_append] at h2
      by_cases hx : r.length < n
      · exact .inl ⟨_, by rw [if_pos hx]⟩
      · rw [List.take_append_of_le_length (by omega)] at hs
        rw [if_neg hx, hs]
        simp only []
        rw [if_pos (by omega)]
        refine .inr ⟨rfl, ?_⟩
        have := padLen_add n
        have := padLen_lt n
        simp only [List.length_cons]; omega
  | bytes =>
    have ht' : tail.length ≠ 0 := by simpa using ht
    by_cases hl : pre.length < 4
    · exact .inl ⟨_, read_bytes_lt hl⟩
    · obtain ⟨a, b, c, d, r, rfl⟩ := exists_word (Nat.not_lt.mp hl)
      generalize hn : (ofBe32 a b c d).toNat = n
      simp only [List.cons_append] at hr
      rw [read_bytes_run a b c d _ n hn] at hr
      rw [read_bytes_run a b c d _ n hn]
      split at hr
      · simp at hr
      split at hr
      · simp at hr
      rename_i h1 h2
      simp only [Res.ok.injEq, Prod.mk.injEq, List.drop_eq_nil_iff, List.length_append] at hr
      simp only [List.length_append] at h2
      by_cases hx : r.length < n
      · exact .inl ⟨_, by rw [if_pos hx]⟩
      · rw [if_neg hx, if_pos (by omega)]
        refine .inr ⟨rfl, ?_⟩
        have := padLen_add n
        have := padLen_lt n
        simp only [List.length_cons]; omega

end Xdr
