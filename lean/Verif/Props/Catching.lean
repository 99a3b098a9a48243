import Verif.Proofs.Catching
/-! # Property C76: implementations that catch the error of a part and go on -/

namespace Xdr

/-- C76. The model that keeps the input extends the other one: every implementation that does not
catch is in it. -/
theorem C76_extends {α : Type} {d : De α} (h : Built d) : ∃ k : K α, Handled true k ∧ k.forget = d := by
  have after : ∀ {β γ : Type} {m : K β} {d : De β} {f : β → De γ}, Handled true m → m.forget = d →
      (∀ a, ∃ k : K γ, Handled true k ∧ k.forget = f a) →
      ∃ k : K γ, Handled true k ∧ k.forget = (d >>= f) := by
    intro β γ m d f hm hd hf
    obtain ⟨k, hk⟩ := Classical.axiomOfChoice hf
    refine ⟨m >>= k, .bind hm fun a => (hk a).1, ?_⟩
    rw [K.forget_bind, hd]
    congr 1
    funext a
    exact (hk a).2
  induction h with
  | pure a => exact ⟨pure a, .pure a, rfl⟩
  | custom m => exact ⟨_, .custom m, rfl⟩
  | panic p => exact ⟨_, .panic p, rfl⟩
  | depth => exact ⟨_, .depth, rfl⟩
  | bind _ _ h1 h2 =>
    obtain ⟨k, hk, rfl⟩ := h1
    exact after hk rfl h2
  | any => exact ⟨_, .any, rfl⟩
  | ignored_any => exact ⟨_, .any, rfl⟩
  | i128 => exact ⟨_, .custom _, rfl⟩
  | u128 => exact ⟨_, .custom _, rfl⟩
  | bool _ h => exact after .u32 forget_u32 fun _ => h _
  | i8 _ h => exact after .i32 forget_i32 fun _ => h _
  | i16 _ h => exact after .i32 forget_i32 fun _ => h _
  | i32 _ h => exact after .i32 forget_i32 fun _ => h _
  | i64 _ h => exact after .i64 forget_i64 fun _ => h _
  | u8 _ h => exact after .u32 forget_u32 fun _ => h _
  | u16 _ h => exact after .u32 forget_u32 fun _ => h _
  | u32 _ h => exact after .u32 forget_u32 fun _ => h _
  | u64 _ h => exact after .u64 forget_u64 fun _ => h _
  | f32 _ h => exact after .u32 forget_u32 fun _ => h _
  | f64 _ h => exact after .u64 forget_u64 fun _ => h _
  | char _ h => exact after .char forget_char fun _ => h _
  | str _ h => exact after (.string rfl) forget_string fun _ => h _
  | string _ h => exact after (.string rfl) forget_string fun _ => h _
  | identifier _ h => exact after (.string rfl) forget_string fun _ => h _
  | bytes _ h => exact after .bytes forget_bytes fun _ => h _
  | byte_buf _ h => exact after .bytes forget_bytes fun _ => h _
  | option _ _ h1 h2 =>
    refine after .u32 forget_u32 fun c => ?_
    split
    · exact h1
    · exact h2
  | unit _ h => exact h
  | unit_struct _ h => exact h
  | newtype_struct _ h => exact h
  | seq _ h => exact after .u32 forget_u32 fun _ => h _
  | tuple _ h => exact h _
  | tuple_struct _ h => exact h _
  | map _ h => exact after .u32 forget_u32 fun _ => h _
  | struct _ h => exact h _
  | enum _ h => exact h
  | @next_element α s d _ h =>
    obtain ⟨k, hk, rfl⟩ := h
    refine ⟨s.nextK k >>= fun p => K.ofExcept p.1 >>= fun o => pure (o, p.2),
      .bind (.next_element hk) fun p => .bind (.rethrow _) fun o => .pure _, ?_⟩
    unfold Seq.nextK Seq.next_element
    split
    · rfl
    · have assoc : (K.attempt k >>= fun r => (pure (r.map some, ({ count := s.count - 1 } : Seq)) : K _)) >>=
          (fun p => K.ofExcept p.1 >>= fun o => (pure (o, p.2) : K _)) =
        K.attempt k >>= fun r => K.ofExcept (r.map some) >>= fun o => pure (o, { count := s.count - 1 }) := by
        funext x
        rw [K.bind_def, K.bind_def, K.bind_def]
        rcases K.attempt k x with ⟨_ | _ | _ | _, r⟩ <;> rfl
      rw [assoc]
      exact forget_attempt _ _ _ (fun a => rfl) (fun e => rfl)
  | @next_key α s d _ h =>
    obtain ⟨k, hk, rfl⟩ := h
    refine ⟨s.nextKeyK k >>= fun p => K.ofExcept p.1 >>= fun o => pure (o, p.2),
      .bind (.next_key hk) fun p => .bind (.rethrow _) fun o => .pure _, ?_⟩
    unfold MapAcc.nextKeyK MapAcc.next_key
    split
    · rfl
    · have assoc : (K.attempt k >>= fun r => (pure (r.map some, ({ count := s.count - 1 } : MapAcc)) : K _)) >>=
          (fun p => K.ofExcept p.1 >>= fun o => (pure (o, p.2) : K _)) =
        K.attempt k >>= fun r => K.ofExcept (r.map some) >>= fun o => pure (o, { count := s.count - 1 }) := by
        funext x
        rw [K.bind_def, K.bind_def, K.bind_def]
        rcases K.attempt k x with ⟨_ | _ | _ | _, r⟩ <;> rfl
      rw [assoc]
      exact forget_attempt _ _ _ (fun a => rfl) (fun e => rfl)
  | next_value _ h => exact h
  | variant_seed _ h =>
    obtain ⟨k, hk⟩ := Classical.axiomOfChoice h
    refine ⟨variant_seedK k, .variant_seed fun a => (hk a).1, ?_⟩
    unfold variant_seedK Enum_variant_seed
    rw [K.forget_bind, forget_i32]
    congr 1
    funext i
    split
    · rfl
    · exact (hk _).2
  | unit_variant => exact ⟨pure (), .pure _, rfl⟩
  | newtype_variant _ h => exact h
  | tuple_variant _ h => exact h _
  | struct_variant _ h => exact h _

/-- C76. `from_bytes` sees no difference. -/
theorem C76_same {α : Type} (k : K α) (b : Bytes) : from_bytesK k b = from_bytes k.forget b := by
  unfold from_bytesK from_bytes K.forget
  rcases k b with ⟨_ | _ | _ | _, r⟩ <;> rfl

/-! ## What is left -/

/-- C76. Whatever an implementation does and whatever it catches, what it leaves, when it succeeds and
when it fails, is a suffix of what it was given: nothing is read twice or made up. -/
theorem C76_suffix {text : Bool} {α : Type} (k : K α) (hk : Handled text k) (input : Bytes) :
    (k input).2 <:+ input := (hk.leaves input).1

/-- C76. Without text, reading goes on at a word boundary, also after a failure. What is missing: text. -/
theorem C76_aligned_partial {α : Type} (k : K α) (hk : Handled false k) (input : Bytes)
    (hp : ∀ p, (k input).1 ≠ .panic p) : (input.length - (k input).2.length) % 4 = 0 :=
  (hk.leaves input).2 rfl hp

/-- Characters, those that are none left out. -/
def lossyChars : Nat → Seq → K (List Char)
  | 0, _ => K.depth
  | n + 1, s => do
    let (r, s') ← s.nextK read_charK
    match r with
    | .ok none => pure []
    | .ok (some c) => do
      let cs ← lossyChars n s'
      pure (c :: cs)
    | .error _ => lossyChars n s'

theorem handled_lossyChars (n : Nat) (s : Seq) : Handled false (lossyChars n s) := by
  induction n generalizing s with
  | zero => exact .depth
  | succ n ih =>
    rw [lossyChars]
    refine .bind (.next_element .char) fun p => ?_
    obtain ⟨_ | _ | c, s'⟩ := p
    · exact ih _
    · exact .pure _
    · exact .bind (ih _) fun _ => .pure _

example : from_bytesK (do let n ← read_u32K; lossyChars (n.toNat + 1) { count := n.toNat })
    [0, 0, 0, 3, 0, 0, 0, 97, 0, 0, 216, 0, 0, 0, 0, 98] = .ok ['a', 'b'] := by decide +kernel

/-! ## Elements -/

/-- C76. An access object says that there are no more elements exactly when as many as announced were
asked for, whether they failed or not; each call uses up one. -/
theorem C76_elements {α : Type} (s : Seq) (seed : K α) (input : Bytes) {r : Except Error (Option α)}
    {s' : Seq} {rest : Bytes} (h : s.nextK seed input = (.ok (r, s'), rest)) :
    (s.count = 0 ↔ r = .ok none) ∧ s'.count = s.count - 1 ∧ (s.count = 0 → rest = input) := by
  unfold Seq.nextK at h
  split at h
  · rename_i h0
    cases h
    exact ⟨by simp [h0], by omega, fun _ => rfl⟩
  · rename_i h0
    rw [K.bind_def] at h
    rcases hx : K.attempt seed input with ⟨(e | a) | e | p | _, q⟩ <;> rw [hx] at h <;> cases h
    · exact ⟨⟨fun h => absurd h h0, fun h => by cases h⟩, rfl, fun h => absurd h h0⟩
    · exact ⟨⟨fun h => absurd h h0, fun h => by cases h⟩, rfl, fun h => absurd h h0⟩

/-- The same for the entries of a map. -/
theorem C76_entries {α : Type} (s : MapAcc) (seed : K α) (input : Bytes) {r : Except Error (Option α)}
    {s' : MapAcc} {rest : Bytes} (h : s.nextKeyK seed input = (.ok (r, s'), rest)) :
    (s.count = 0 ↔ r = .ok none) ∧ s'.count = s.count - 1 ∧ (s.count = 0 → rest = input) := by
  unfold MapAcc.nextKeyK at h
  split at h
  · rename_i h0
    cases h
    exact ⟨by simp [h0], by omega, fun _ => rfl⟩
  · rename_i h0
    rw [K.bind_def] at h
    rcases hx : K.attempt seed input with ⟨(e | a) | e | p | _, q⟩ <;> rw [hx] at h <;> cases h
    · exact ⟨⟨fun h => absurd h h0, fun h => by cases h⟩, rfl, fun h => absurd h h0⟩
    · exact ⟨⟨fun h => absurd h h0, fun h => by cases h⟩, rfl, fun h => absurd h h0⟩

/-- `while let r = seq.next_element() { if let Ok(None) = r { break } .. }`: a visitor that leaves out
the elements that fail. The first argument bounds the number of iterations. -/
def skipFailing {α : Type} (seed : K α) : Nat → Seq → K (List α)
  | 0, _ => K.depth
  | n + 1, s => do
    let (r, s') ← s.nextK seed
    match r with
    | .ok none => pure []
    | .ok (some a) => do
      let as ← skipFailing seed n s'
      pure (a :: as)
    | .error _ => skipFailing seed n s'

/-- C76. Leaving out what fails comes to an end: `count + 1` calls are enough, whatever the seed does,
and never are there more elements than announced. -/
theorem C76_ends {α : Type} (seed : K α) (hs : ∀ s, (seed s).1 ≠ .depth) (s : Seq) (n : Nat)
    (hn : s.count < n) (input : Bytes) : (skipFailing seed n s input).1 ≠ .depth ∧
      ∀ as, (skipFailing seed n s input).1 = .ok as → as.length ≤ s.count := by
  induction n generalizing s input with
  | zero => omega
  | succ n ih =>
    rw [skipFailing, K.bind_def]
    unfold Seq.nextK
    by_cases h0 : s.count = 0
    · rw [if_pos h0]
      exact ⟨by simp [pure, K.pure], fun as h => by cases h; simp⟩
    · rw [if_neg h0, K.bind_def]
      have hd := hs input
      unfold K.attempt
      rcases hx : seed input with ⟨a | e | p | _, q⟩ <;> rw [hx] at hd
      · have h := ih { count := s.count - 1 } (by dsimp only; omega) q
        show (((skipFailing seed n { count := s.count - 1 } >>= fun as => pure (a :: as)) q).1 ≠ .depth ∧
          ∀ as, ((skipFailing seed n { count := s.count - 1 } >>= fun as => pure (a :: as)) q).1 = .ok as →
            as.length ≤ s.count)
        rw [K.bind_def]
        rcases hy : skipFailing seed n { count := s.count - 1 } q with ⟨as | e | p | _, q'⟩ <;>
          rw [hy] at h
        · refine ⟨by simp [pure, K.pure], fun bs hb => ?_⟩
          cases hb
          have := h.2 as rfl
          dsimp only at this
          rw [List.length_cons]
          omega
        · exact ⟨by simp, by simp⟩
        · exact ⟨by simp, by simp⟩
        · exact absurd rfl h.1
      · have h := ih { count := s.count - 1 } (by dsimp only; omega) q
        exact ⟨h.1, fun as ha => by have := h.2 as ha; dsimp only at this; omega⟩
      · exact ⟨by simp, by simp⟩
      · exact absurd rfl hd

/-! ## Text -/

/-- Text that is not UTF-8 is taken off the input, its padding is not. -/
theorem read_stringK_invalid (v rest : Bytes) (hl : v.length < 2 ^ 32) (hv : utf8Decode v = none) :
    read_stringK (lenBytes v.length ++ (v ++ rest)) = (.err (.encoding (utf8Fault v)), rest) := by
  obtain ⟨c, h1, h2⟩ := lenBytes_reads hl (v ++ rest)
  have hu : read_u32K (lenBytes v.length ++ (v ++ rest)) = (.ok c, v ++ rest) := by
    have h3 := congrFun forget_u32 (lenBytes v.length ++ (v ++ rest))
    rw [h1] at h3
    unfold K.forget at h3
    rcases hx : read_u32K (lenBytes v.length ++ (v ++ rest)) with ⟨a | e | p | _, q⟩ <;> rw [hx] at h3 <;>
      cases h3
    rfl
  rw [read_stringK, K.bind_def, hu]
  dsimp only
  rw [K.bind_def]
  unfold readK
  rw [if_neg (by rw [List.length_append]; omega), h2]
  dsimp only
  rw [List.take_left, List.drop_left, from_utf8_eq, hv]
  rfl

/-- C76 fails for text: after text that is not UTF-8, reading goes on at the end of the text, before its
padding, and all that follows is read from the wrong place. For any such text whose length is no
multiple of four. -/
theorem C76_text_violated (v rest : Bytes) (hl : v.length < 2 ^ 32) (hv : utf8Decode v = none)
    (h4 : v.length % 4 ≠ 0) : ∃ k : K (List Char), Handled true k ∧
      (∃ e, (k (lenBytes v.length ++ (v ++ rest))).1 = .err (.encoding e)) ∧
      ((lenBytes v.length ++ (v ++ rest)).length - (k (lenBytes v.length ++ (v ++ rest))).2.length) % 4 ≠ 0 := by
  refine ⟨read_stringK, .string rfl, ?_, ?_⟩
  · exact ⟨_, by rw [read_stringK_invalid v rest hl hv]⟩
  · rw [read_stringK_invalid v rest hl hv]
    simp only [List.length_append, lenBytes, be32_length]
    omega

/-- A name that may be unreadable, then a number. -/
def lossyName : K (Option (List Char) × UInt32) := do
  let r ← K.attempt read_stringK
  let n ← read_u32K
  pure (r.toOption, n)

/-- C76, what a user sees: with a readable name the number is 7; with an unreadable one, in a message
otherwise the same, it is not read. -/
theorem C76_name_violated : Handled true lossyName ∧
    from_bytesK lossyName [0, 0, 0, 1, 97, 0, 0, 0, 0, 0, 0, 7] = .ok (some ['a'], 7) ∧
    from_bytesK lossyName [0, 0, 0, 1, 255, 0, 0, 0, 0, 0, 0, 7] = .err (.trailingData 3) :=
  ⟨.bind (.attempt (.string rfl)) fun _ => .bind .u32 fun _ => .pure _, by decide +kernel, by decide +kernel⟩

example : utf8Decode [255] = none := by decide

end Xdr
