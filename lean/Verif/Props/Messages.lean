import Verif.Props.Scalars
import Verif.Proofs.Display
import Verif.Rpcgen.Display
/-!
# Property C77: what errors say

`Faulty` (`Spec/Utf8.lean`) is what an encoding error has to say of a byte string.
-/

namespace Xdr

/-- C77. Text that is announced with its length and is all there is refused with an encoding error that
says what is wrong with it, and with no other one; whatever follows, even if the padding is missing. -/
theorem C77_fault (env : Env) (m : Nat) (payload rest : Bytes) (hn : payload.length < 2 ^ 32) (e : Utf8Error) :
    deTy env (m + 1) .string (Rfc.beBytes 4 payload.length ++ payload ++ rest) = .err (.encoding e) ↔
      Faulty payload e := by
  have hl : (UInt32.ofNat payload.length).toNat = payload.length := by
    rw [UInt32.toNat_ofNat', Nat.mod_eq_of_lt hn]
  have hrun : read_string (Rfc.beBytes 4 payload.length ++ payload ++ rest) =
      match utf8Decode payload with
      | none => .err (.encoding (utf8Fault payload))
      | some s =>
        if (payload ++ rest).length < payload.length + padLen payload.length then .panic .paddingSlice
        else .ok (s, (payload ++ rest).drop (payload.length + padLen payload.length)) := by
    rw [beBytes4]
    simp only [be32, List.cons_append, List.nil_append]
    rw [read_string_run _ _ _ _ _ payload.length (by rw [ofBe32_be32, hl]), if_neg (by simp)]
    have : List.take payload.length (payload ++ rest) = payload := by simp
    rw [this]
    cases utf8Decode payload <;> rfl
  simp only [deTy, deserialize_string]
  generalize Rfc.beBytes 4 payload.length ++ payload ++ rest = inp at hrun ⊢
  rcases hd : utf8Decode payload with _ | s <;> rw [hd] at hrun <;> dsimp only at hrun
  · rw [M.bind_err hrun]
    constructor
    · intro h
      cases h
      exact utf8Fault_spec hd
    · intro h
      rw [h.unique (utf8Fault_spec hd)]
  · have hno : ¬ Faulty payload e := by
      intro h
      have := validation_iff.2 h
      rw [validation_none.2 ⟨s, hd⟩] at this
      cases this
    refine ⟨fun h => ?_, fun h => absurd h hno⟩
    exfalso
    by_cases hp : (payload ++ rest).length < payload.length + padLen payload.length
    · rw [if_pos hp] at hrun
      rw [M.bind_panic hrun] at h
      cases h
    · rw [if_neg hp] at hrun
      rw [M.bind_ok hrun] at h
      cases h

/-- What begins with a text begins with its characters. -/
theorem text_prefix {t t' : List Char} {x r : Bytes} (h : utf8Bytes t ++ x = utf8Bytes t' ++ r)
    (hl : (utf8Bytes t').length < (utf8Bytes t).length) : ∃ c, utf8Char c <+: r := by
  induction t' generalizing t with
  | nil =>
    cases t with
    | nil => simp [utf8Bytes] at hl
    | cons c t => exact ⟨c, utf8Bytes t ++ x, by rw [← List.append_assoc]; exact h⟩
  | cons c' t' ih =>
    cases t with
    | nil => simp [utf8Bytes] at hl
    | cons c t =>
      have hs := charShape_char c
      have hs' := charShape_char c'
      simp only [utf8Bytes, List.append_assoc] at h
      simp only [utf8Bytes, List.length_append] at hl
      have he : (utf8Char c).length = (utf8Char c').length := by
        generalize utf8Char c = p at h hs
        generalize utf8Char c' = q at h hs'
        cases hs <;> cases hs' <;> simp only [List.cons_append, List.cons.injEq] at h <;>
          obtain ⟨rfl, -⟩ := h <;> first | rfl | omega
      exact ih (List.append_inj h he).2 (by omega)

/-- C77. The position in the error is the length of the longest beginning that is valid UTF-8. -/
theorem C77_longest {v : Bytes} {e : Utf8Error} (h : Faulty v e) :
    e.valid_up_to < v.length ∧
    (∃ t : List Char, v.take e.valid_up_to = t.flatMap String.utf8EncodeChar) ∧
    ∀ p, e.valid_up_to < p → p ≤ v.length → ¬ ∃ t : List Char, v.take p = t.flatMap String.utf8EncodeChar := by
  obtain ⟨t, r, h1, h2, h3, h4, -⟩ := h
  refine ⟨?_, ⟨t, ?_⟩, ?_⟩
  · have := List.length_pos_iff.2 h3
    rw [h1, List.length_append]
    omega
  · rw [h1, h2, List.take_left]
  · rintro p hp hl ⟨t', ht⟩
    rw [← utf8Bytes_core] at ht h2 h1
    have hlen : (utf8Bytes t').length = p := by rw [← ht, List.length_take]; omega
    obtain ⟨c, hc⟩ := text_prefix (t := t') (t' := t) (x := v.drop p) (r := r)
      (by rw [← ht, List.take_append_drop, h1]) (by omega)
    exact h4 c (by rw [utf8Char_core]; exact hc)

/-- C77. There is no length in the error if and only if more bytes could make the text valid. -/
theorem C77_cut {v : Bytes} {e : Utf8Error} (h : Faulty v e) :
    e.error_len = none ↔ ∃ (w : Bytes) (t : List Char), v ++ w = t.flatMap String.utf8EncodeChar := by
  obtain ⟨t, r, h1, h2, h3, h4, h5⟩ := h
  constructor
  · intro he
    rw [he] at h5
    obtain ⟨c, w, hw⟩ := h5
    exact ⟨w, t ++ [c], by rw [h1, List.append_assoc, hw, List.flatMap_append]; simp⟩
  · rintro ⟨w, t', ht⟩
    cases he : e.error_len with
    | none => rfl
    | some k =>
      rw [he] at h5
      have hr := List.length_pos_iff.2 h3
      rw [← utf8Bytes_core] at ht h1 h2
      obtain ⟨c, hc⟩ := text_prefix (t := t') (t' := t) (x := []) (r := r ++ w)
        (by rw [List.append_nil, ← ht, h1, List.append_assoc])
        (by rw [← ht, h1]; simp only [List.length_append]; omega)
      exfalso
      rcases List.prefix_or_prefix_of_prefix hc (List.prefix_append r w) with h | h
      · exact h4 c (by rw [utf8Char_core]; exact h)
      · exact h5.1 ⟨c, by rw [utf8Char_core]; exact h⟩

/-- `né` in Latin-1, a cut-off euro sign, a surrogate. -/
example : Faulty [0x6E, 0xE9] ⟨1, none⟩ ∧ Faulty [0x6E, 0xE9, 0x65] ⟨1, some 1⟩ ∧
    Faulty [0x61, 0xE2, 0x82] ⟨1, none⟩ ∧ Faulty [0xE2, 0x82, 0x61] ⟨0, some 2⟩ ∧ Faulty [0xED, 0xA0, 0x80] ⟨0, some 1⟩ :=
  ⟨validation_iff.1 (by decide +kernel), validation_iff.1 (by decide +kernel), validation_iff.1 (by decide +kernel),
    validation_iff.1 (by decide +kernel), validation_iff.1 (by decide +kernel)⟩

/-- C77. Two errors with the same text are the same error, whichever characters std prints as they are. -/
theorem C77_message (plain : Char → Bool) {e e' : Error} (h : e.display plain = e'.display plain) : e = e' :=
  error_inj (List.append_cancel_left h)

example : (Error.custom "no \"x\"").display (fun _ => true) = c!"error: Custom(\"no \\\"x\\\"\")" ∧
    (Error.encoding ⟨1, some 2⟩).display (fun _ => true) =
      c!"error: Encoding(Utf8Error { valid_up_to: 1, error_len: Some(2) })" ∧
    (Error.encoding ⟨0, none⟩).display (fun _ => true) =
      c!"error: Encoding(Utf8Error { valid_up_to: 0, error_len: None })" ∧
    (Error.notEnoughData 3).display (fun _ => true) = c!"error: NotEnoughData(3)" ∧
    (Error.trailingData 12).display (fun _ => true) = c!"error: TrailingData(12)" ∧
    Error.convert.display (fun _ => true) = c!"error: Convert" ∧
    Error.notImplemented.display (fun _ => true) = c!"error: NotImplemented" ∧
    Error.notSupported.display (fun _ => true) = c!"error: NotSupported" := by decide +kernel

end Xdr

namespace Xdr.Rpcgen

theorem constant_inj {plain : Char → Bool} {c c' : Constant} (h : c.debug plain = c'.debug plain) : c = c' := by
  cases c <;> cases c' <;> simp only [Constant.debug, List.cons_append, List.cons.injEq, Char.reduceEq, false_and, true_and,
    List.nil_append, and_false] at h
  all_goals (obtain ⟨rfl, -⟩ := debugStr_inj h; rfl)

theorem genError_inj {plain : Char → Bool} {e e' : GenError} (h : e.debug plain = e'.debug plain) : e = e' := by
  cases e <;> cases e' <;> simp only [GenError.debug, List.cons_append, List.cons.injEq, Char.reduceEq, false_and, true_and,
    List.nil_append, and_false] at h
  · obtain ⟨rfl, -⟩ := debugStr_inj h; rfl
  · rfl
  · obtain ⟨h, -⟩ := debugStr_inj h
    rw [constant_inj h]

/-- C77. What the tool prints on standard error tells what is wrong: a text that is no interface, a name that
is not found, a number that does not fit or something that is not supported; and which name or number. -/
theorem C77_tool (plain : Char → Bool) {r r' : RunResult} {m : Str} (h : r.message plain = some m)
    (h' : r'.message plain = some m) :
    (r = .parseError ∧ r' = .parseError) ∨ ∃ e, r = .genError e ∧ r' = .genError e := by
  rw [← h'] at h
  cases r <;> cases r' <;> simp only [RunResult.message, Option.some.injEq, reduceCtorEq] at h h'
  · exact .inl ⟨rfl, rfl⟩
  · next e =>
    exfalso
    cases e <;> simp [GenError.debug] at h
  · next e =>
    exfalso
    cases e <;> simp [GenError.debug] at h
  · next e e' =>
    refine .inr ⟨e, rfl, ?_⟩
    simp only [List.cons_append, List.nil_append, List.cons.injEq, true_and] at h
    rw [genError_inj (List.append_cancel_right h)]

example : (run 10 c!"const A = 99999999999999999999;" {}).message (fun _ => true) =
    some c!"Error: RpcGen(Parse(\"Decimal(\\\"99999999999999999999\\\")\"))\n" ∧
    (run 10 c!"enum e { A = B };" {}).message (fun _ => true) =
    some c!"Error: RpcGen(NotFountIdentifier(\"B\"))\n" ∧
    (RunResult.genError (.parse (.hex c!"fffffffff"))).message (fun _ => true) =
    some c!"Error: RpcGen(Parse(\"Hex(\\\"fffffffff\\\")\"))\n" ∧
    (RunResult.genError (.parse (.octal c!"1777"))).message (fun _ => true) =
    some c!"Error: RpcGen(Parse(\"Octal(\\\"1777\\\")\"))\n" ∧
    (RunResult.genError .notSupported).message (fun _ => true) = some c!"Error: RpcGen(NotSupported)\n" ∧
    RunResult.parseError.message (fun _ => true) = some c!"Error: RpcGen(TrailingData)\n" := by decide +kernel

end Xdr.Rpcgen
