import Verif.Spec.Catching
import Verif.Proofs.Gen
/-! # Lemmas: decoders with the input they leave behind -/

namespace Xdr

theorem K.bind_def {α β : Type} (m : K α) (f : α → K β) (s : Bytes) : (m >>= f) s =
    match m s with
    | (.ok a, s') => f a s'
    | (.err e, s') => (.err e, s')
    | (.panic p, s') => (.panic p, s')
    | (.depth, s') => (.depth, s') := rfl

theorem K.forget_bind {α β : Type} (m : K α) (f : α → K β) :
    (m >>= f).forget = (m.forget >>= fun a => (f a).forget) := by
  funext s
  rw [M.bind_run]
  unfold K.forget
  rw [K.bind_def]
  rcases m s with ⟨_ | _ | _ | _, r⟩ <;> rfl

theorem forget_read (len : Nat) : (readK len).forget = read len := by
  funext s
  unfold K.forget readK read
  by_cases h : s.length < len <;> simp only [h, if_true, if_false]

theorem forget_word32 (v : Bytes) : (word32K v).forget = word32 v := by
  match v with
  | [a, b, c, d] => rfl
  | [] | [_] | [_, _] | [_, _, _] | _ :: _ :: _ :: _ :: _ :: _ => rfl

theorem forget_word64 (v : Bytes) : (word64K v).forget = word64 v := by
  match v with
  | [a, b, c, d, e, f, g, h] => rfl
  | [] | [_] | [_, _] | [_, _, _] | [_, _, _, _] | [_, _, _, _, _] | [_, _, _, _, _, _]
  | [_, _, _, _, _, _, _] | _ :: _ :: _ :: _ :: _ :: _ :: _ :: _ :: _ :: _ => rfl

theorem forget_u32 : read_u32K.forget = read_u32 := by
  rw [read_u32K, K.forget_bind, forget_read, read_u32]
  simp only [forget_word32]

theorem forget_u64 : read_u64K.forget = read_u64 := by
  rw [read_u64K, K.forget_bind, forget_read, read_u64]
  simp only [forget_word64]

theorem forget_i32 : read_i32K.forget = read_i32 := by
  rw [read_i32K, K.forget_bind, forget_read, read_i32]
  simp only [K.forget_bind, forget_word32]
  rfl

theorem forget_i64 : read_i64K.forget = read_i64 := by
  rw [read_i64K, K.forget_bind, forget_read, read_i64]
  simp only [K.forget_bind, forget_word64]
  rfl

theorem forget_char : read_charK.forget = read_char := by
  rw [read_charK, K.forget_bind, forget_u32, read_char]
  congr 1
  funext c
  cases charFromU32 c <;> rfl

theorem forget_skip (k : Nat) : (skipPaddingK k).forget = skipPadding k := by
  funext s
  unfold K.forget skipPaddingK skipPadding
  by_cases h : k ≤ s.length <;> simp only [h, if_true, if_false]

theorem forget_bytes : read_bytesK.forget = read_bytes := by
  rw [read_bytesK, K.forget_bind, forget_u32, read_bytes]
  congr 1
  funext c
  rw [K.forget_bind, forget_read]
  congr 1
  funext v
  split
  · rw [K.forget_bind, forget_skip]; rfl
  · rfl

theorem forget_string : read_stringK.forget = read_string := by
  rw [read_stringK, K.forget_bind, forget_u32, read_string]
  congr 1
  funext c
  rw [K.forget_bind, forget_read]
  congr 1
  funext v
  cases from_utf8 v with
  | error e => rfl
  | ok x =>
    dsimp only
    split
    · rw [K.forget_bind, forget_skip]; rfl
    · rfl

theorem forget_attempt {α β : Type} (m : K α) (f : Except Error α → K β) (g : α → De β)
    (hok : ∀ a, (f (.ok a)).forget = g a) (herr : ∀ e, (f (.error e)).forget = M.fail e) :
    (K.attempt m >>= f).forget = (m.forget >>= g) := by
  funext s
  rw [M.bind_run]
  unfold K.forget
  rw [K.bind_def]
  unfold K.attempt
  rcases m s with ⟨a | e | _ | _, r⟩
  · have := congrFun (hok a) r
    unfold K.forget at this
    exact this
  · have := congrFun (herr e) r
    unfold K.forget at this
    exact this
  · rfl
  · rfl

/-! ## What is left -/

/-- What is left is a suffix, and in whole words if `words`. -/
def Left (words : Bool) {α : Type} (s : Bytes) (x : Res α × Bytes) : Prop := x.2 <:+ s ∧
  (words = true → (∀ p, x.1 ≠ .panic p) → (s.length - x.2.length) % 4 = 0)

/-- So on every input. -/
def Leaves (words : Bool) {α : Type} (k : K α) : Prop := ∀ s, Left words s (k s)

theorem Leaves.still {words : Bool} {α : Type} {k : K α} (h : ∀ s, (k s).2 = s) : Leaves words k := by
  intro s
  unfold Left
  rw [h s]
  exact ⟨List.suffix_refl _, fun _ _ => by omega⟩

theorem K.bind_ok {α β : Type} {m : K α} {f : α → K β} {s r : Bytes} {a : α} (h : m s = (.ok a, r)) :
    (m >>= f) s = f a r := by rw [K.bind_def, h]

theorem K.bind_err {α β : Type} {m : K α} {f : α → K β} {s r : Bytes} {e : Error} (h : m s = (.err e, r)) :
    (m >>= f) s = (.err e, r) := by rw [K.bind_def, h]

theorem K.bind_panic {α β : Type} {m : K α} {f : α → K β} {s r : Bytes} {p : PanicSite}
    (h : m s = (.panic p, r)) : (m >>= f) s = (.panic p, r) := by rw [K.bind_def, h]

theorem K.bind_depth {α β : Type} {m : K α} {f : α → K β} {s r : Bytes} (h : m s = (.depth, r)) :
    (m >>= f) s = (.depth, r) := by rw [K.bind_def, h]

theorem Leaves.bind {words : Bool} {α β : Type} {m : K α} {f : α → K β} (hm : Leaves words m)
    (hf : ∀ a, Leaves words (f a)) : Leaves words (m >>= f) := by
  intro s
  have h := hm s
  rcases hx : m s with ⟨a | e | p | _, r⟩ <;> rw [hx] at h
  · rw [K.bind_ok hx]
    obtain ⟨h1, h2⟩ := h
    obtain ⟨g1, g2⟩ := hf a r
    refine ⟨g1.trans h1, fun hw hp => ?_⟩
    have l1 := h1.length_le
    have l2 := g1.length_le
    have e1 := h2 hw (by simp)
    have e2 := g2 hw hp
    dsimp only at l1 e1
    omega
  · rw [K.bind_err hx]; exact ⟨h.1, fun hw _ => h.2 hw (by simp)⟩
  · rw [K.bind_panic hx]; exact ⟨h.1, fun _ hp => absurd rfl (hp p)⟩
  · rw [K.bind_depth hx]; exact ⟨h.1, fun hw _ => h.2 hw (by simp)⟩

theorem Leaves.attempt {words : Bool} {α : Type} {m : K α} (hm : Leaves words m) :
    Leaves words (K.attempt m) := by
  intro s
  have h := hm s
  unfold K.attempt
  rcases hx : m s with ⟨a | e | p | _, r⟩ <;> rw [hx] at h
  · exact ⟨h.1, fun hw _ => h.2 hw (by simp)⟩
  · exact ⟨h.1, fun hw _ => h.2 hw (by simp)⟩
  · exact ⟨h.1, fun _ hp => absurd rfl (hp p)⟩
  · exact ⟨h.1, fun hw _ => h.2 hw (by simp)⟩

theorem Leaves.word {words : Bool} : Leaves words (readK 4) := by
  intro s
  unfold readK
  split
  · exact ⟨List.suffix_refl _, fun _ _ => by dsimp only; omega⟩
  · exact ⟨List.drop_suffix _ _, fun _ _ => by simp only [List.length_drop]; omega⟩

theorem Leaves.double {words : Bool} : Leaves words (readK 8) := by
  intro s
  unfold readK
  split
  · exact ⟨List.suffix_refl _, fun _ _ => by dsimp only; omega⟩
  · exact ⟨List.drop_suffix _ _, fun _ _ => by simp only [List.length_drop]; omega⟩

theorem word32K_still (v s : Bytes) : (word32K v s).2 = s := by
  unfold word32K
  split <;> rfl

theorem word64K_still (v s : Bytes) : (word64K v s).2 = s := by
  unfold word64K
  split <;> rfl

theorem Leaves.u32 {words : Bool} : Leaves words read_u32K :=
  .bind .word fun v => .still (word32K_still v)

theorem Leaves.u64 {words : Bool} : Leaves words read_u64K :=
  .bind .double fun v => .still (word64K_still v)

theorem Leaves.i32 {words : Bool} : Leaves words read_i32K :=
  .bind .word fun v => .bind (.still (word32K_still v)) fun _ => .still fun _ => rfl

theorem Leaves.i64 {words : Bool} : Leaves words read_i64K :=
  .bind .double fun v => .bind (.still (word64K_still v)) fun _ => .still fun _ => rfl

theorem Leaves.read (len : Nat) : Leaves false (readK len) := by
  intro s
  unfold readK
  split
  · exact ⟨List.suffix_refl _, by simp⟩
  · exact ⟨List.drop_suffix _ _, by simp⟩

theorem Leaves.skip (len : Nat) : Leaves false (skipPaddingK len) := by
  intro s
  unfold skipPaddingK
  split
  · exact ⟨List.drop_suffix _ _, by simp⟩
  · exact ⟨List.suffix_refl _, by simp⟩

theorem readK_lt {len : Nat} {s : Bytes} (h : s.length < len) :
    readK len s = (.err (.notEnoughData (len - s.length)), s) := if_pos h

theorem readK_ge {len : Nat} {s : Bytes} (h : len ≤ s.length) :
    readK len s = (.ok (s.take len), s.drop len) := if_neg (Nat.not_lt.mpr h)

theorem Leaves.bytes {words : Bool} : Leaves words read_bytesK := by
  unfold read_bytesK
  refine .bind .u32 fun c => ?_
  intro s
  by_cases h : s.length < c.toNat
  · rw [K.bind_err (readK_lt h)]
    exact ⟨List.suffix_refl _, fun _ _ => by dsimp only; omega⟩
  · rw [K.bind_ok (readK_ge (Nat.not_lt.mp h))]
    split
    · by_cases h' : 4 - c.toNat % 4 ≤ (s.drop c.toNat).length
      · have e : skipPaddingK (4 - c.toNat % 4) (s.drop c.toNat) =
            (.ok (), (s.drop c.toNat).drop (4 - c.toNat % 4)) := if_pos h'
        rw [K.bind_ok e]
        refine ⟨(List.drop_suffix _ _).trans (List.drop_suffix _ _), fun _ _ => ?_⟩
        show (s.length - (List.drop _ (List.drop _ s)).length) % 4 = 0
        simp only [List.length_drop] at h' ⊢
        omega
      · have e : skipPaddingK (4 - c.toNat % 4) (s.drop c.toNat) =
            (.panic .paddingSlice, s.drop c.toNat) := if_neg h'
        rw [K.bind_panic e]
        exact ⟨List.drop_suffix _ _, fun _ hp => absurd rfl (hp _)⟩
    · refine ⟨List.drop_suffix _ _, fun _ _ => ?_⟩
      show (s.length - (List.drop _ s).length) % 4 = 0
      simp only [List.length_drop]
      omega

theorem Leaves.string : Leaves false read_stringK := by
  unfold read_stringK
  refine .bind .u32 fun c => .bind (.read _) fun v => ?_
  split
  · exact .still fun _ => rfl
  · split
    · exact .bind (.skip _) fun _ => .still fun _ => rfl
    · exact .still fun _ => rfl

theorem Handled.leaves {text : Bool} {α : Type} {k : K α} (h : Handled text k) : Leaves (!text) k := by
  induction h with
  | pure a => exact .still fun _ => rfl
  | custom m => exact .still fun _ => rfl
  | panic p => exact .still fun _ => rfl
  | depth => exact .still fun _ => rfl
  | bind _ _ h1 h2 => exact .bind h1 h2
  | attempt _ h => exact .attempt h
  | rethrow r => cases r <;> exact .still fun _ => rfl
  | any => exact .still fun _ => rfl
  | u32 => exact .u32
  | i32 => exact .i32
  | u64 => exact .u64
  | i64 => exact .i64
  | char =>
    refine .bind .u32 fun c => ?_
    split <;> exact .still fun _ => rfl
  | bytes => exact .bytes
  | string h => subst h; exact .string
  | next_element _ h =>
    unfold Seq.nextK
    split
    · exact .still fun _ => rfl
    · exact .bind (.attempt h) fun _ => .still fun _ => rfl
  | next_key _ h =>
    unfold MapAcc.nextKeyK
    split
    · exact .still fun _ => rfl
    · exact .bind (.attempt h) fun _ => .still fun _ => rfl
  | variant_seed _ h =>
    refine .bind .i32 fun i => ?_
    split
    · exact .still fun _ => rfl
    · exact h _

end Xdr
