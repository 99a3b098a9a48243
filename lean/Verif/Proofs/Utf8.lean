import Verif.Proofs.Basic
import Verif.Spec.Utf8
/-! # Lemmas: `run_utf8_validation` -/

namespace Xdr

/-- The model's UTF-8 is the UTF-8 of Lean's core library. -/
theorem utf8Char_core (c : Char) : String.utf8EncodeChar c = utf8Char c := by
  symm
  have hc : c.toNat < 0x110000 := by
    have := c.valid
    rcases this with h | h
    · have : c.toNat = c.val.toNat := rfl
      omega
    · exact h.2
  unfold utf8Char String.utf8EncodeChar
  have e : c.val.toNat = c.toNat := rfl
  simp only [e]
  generalize c.toNat = n at *
  by_cases h1 : n < 0x80
  · rw [if_pos h1, if_pos (by omega)]
  have h1' : ¬ n ≤ 127 := by omega
  rw [if_neg h1, if_neg h1']
  by_cases h2 : n < 0x800
  · rw [if_pos h2, if_pos (by omega), Nat.mod_eq_of_lt (a := n / 64) (b := 32) (by omega),
      Nat.add_comm 0xC0, Nat.add_comm 0x80]
  have h2' : ¬ n ≤ 2047 := by omega
  rw [if_neg h2, if_neg h2']
  by_cases h3 : n < 0x10000
  · rw [if_pos h3, if_pos (by omega), Nat.mod_eq_of_lt (a := n / 4096) (b := 16) (by omega),
      Nat.add_comm 0xE0, Nat.add_comm 0x80, Nat.add_comm 0x80]
  have h3' : ¬ n ≤ 65535 := by omega
  rw [if_neg h3, if_neg h3', Nat.mod_eq_of_lt (a := n / 262144) (b := 8) (by omega),
    Nat.add_comm 0xF0, Nat.add_comm 0x80, Nat.add_comm 0x80, Nat.add_comm 0x80]

theorem utf8Bytes_core (s : List Char) : utf8Bytes s = s.flatMap String.utf8EncodeChar := by
  induction s with
  | nil => rfl
  | cons c cs ih => rw [utf8Bytes, List.flatMap_cons, ih, utf8Char_core]

/-- The bytes of one character: Unicode table 3-7. -/
inductive CharShape : Bytes → Prop
  | one {a : UInt8} : utf8_char_width a = 1 → CharShape [a]
  | two {a b : UInt8} : utf8_char_width a = 2 → isCont b = true → CharShape [a, b]
  | three {a b c : UInt8} : utf8_char_width a = 3 → second3 a b = true → isCont c = true → CharShape [a, b, c]
  | four {a b c d : UInt8} : utf8_char_width a = 4 → second4 a b = true → isCont c = true → isCont d = true →
      CharShape [a, b, c, d]

theorem width_one {a : UInt8} : utf8_char_width a = 1 ↔ a.toNat < 0x80 := by
  unfold utf8_char_width; repeat' split
  all_goals omega

theorem width_two {a : UInt8} : utf8_char_width a = 2 ↔ 0xC2 ≤ a.toNat ∧ a.toNat < 0xE0 := by
  unfold utf8_char_width; repeat' split
  all_goals omega

theorem width_three {a : UInt8} : utf8_char_width a = 3 ↔ 0xE0 ≤ a.toNat ∧ a.toNat < 0xF0 := by
  unfold utf8_char_width; repeat' split
  all_goals omega

theorem width_four {a : UInt8} : utf8_char_width a = 4 ↔ 0xF0 ≤ a.toNat ∧ a.toNat < 0xF5 := by
  unfold utf8_char_width; repeat' split
  all_goals omega

theorem charShape_char (c : Char) : CharShape (utf8Char c) := by
  have hv : c.toNat < 0xD800 ∨ 0xDFFF < c.toNat ∧ c.toNat < 0x110000 := c.valid
  unfold utf8Char
  dsimp only
  split
  · exact .one (width_one.2 (by simp only [UInt8.toNat_ofNat']; omega))
  split
  · exact .two (width_two.2 (by simp only [UInt8.toNat_ofNat']; omega))
      (by simp only [isCont, UInt8.toNat_ofNat', decide_eq_true_eq]; omega)
  split
  · exact .three (width_three.2 (by simp only [UInt8.toNat_ofNat']; omega))
      (by simp only [second3, UInt8.toNat_ofNat', decide_eq_true_eq]; omega)
      (by simp only [isCont, UInt8.toNat_ofNat', decide_eq_true_eq]; omega)
  · exact .four (width_four.2 (by simp only [UInt8.toNat_ofNat']; omega))
      (by simp only [second4, UInt8.toNat_ofNat', decide_eq_true_eq]; omega)
      (by simp only [isCont, UInt8.toNat_ofNat', decide_eq_true_eq]; omega)
      (by simp only [isCont, UInt8.toNat_ofNat', decide_eq_true_eq]; omega)

theorem char_toNat {n : Nat} (h : n.isValidChar) : (Char.ofNatAux n h).toNat = n := by
  have : n < 0x110000 := by rcases h with h | h <;> omega
  rfl

theorem char_charShape {p : Bytes} (h : CharShape p) : ∃ c, utf8Char c = p := by
  cases h with
  | @one a h =>
    rw [width_one] at h
    have hv : a.toNat.isValidChar := .inl (by omega)
    exact ⟨Char.ofNatAux _ hv, utf8Char_one h (char_toNat hv)⟩
  | @two a b h h2 =>
    rw [width_two] at h
    simp only [isCont, decide_eq_true_eq] at h2
    have hv : ((a.toNat - 0xC0) * 64 + (b.toNat - 0x80)).isValidChar := .inl (by omega)
    exact ⟨Char.ofNatAux _ hv, utf8Char_two (y := b.toNat - 0x80) (by omega) (by omega) (char_toNat hv) (by omega)⟩
  | @three a b c h h2 h3 =>
    rw [width_three] at h
    simp only [isCont, decide_eq_true_eq] at h3
    simp only [second3, decide_eq_true_eq] at h2
    have hv : ((a.toNat - 0xE0) * 4096 + (b.toNat - 0x80) * 64 + (c.toNat - 0x80)).isValidChar := by
      unfold Nat.isValidChar; omega
    exact ⟨Char.ofNatAux _ hv, utf8Char_three (y := b.toNat - 0x80) (z := c.toNat - 0x80) (by omega) (by omega)
      (by omega) (char_toNat hv) (by omega)⟩
  | @four a b c d h h2 h3 h4 =>
    rw [width_four] at h
    simp only [isCont, decide_eq_true_eq] at h3 h4
    simp only [second4, decide_eq_true_eq] at h2
    have hv : ((a.toNat - 0xF0) * 262144 + (b.toNat - 0x80) * 4096 + (c.toNat - 0x80) * 64 + (d.toNat - 0x80)).isValidChar := by
      unfold Nat.isValidChar; omega
    exact ⟨Char.ofNatAux _ hv, utf8Char_four (y := b.toNat - 0x80) (z := c.toNat - 0x80) (w := d.toNat - 0x80)
      (by omega) (by omega) (by omega) (by omega) (char_toNat hv) (by omega)⟩

theorem starts_iff {p : Bytes} : StartsChar p ↔ ∃ q, CharShape q ∧ p <+: q := by
  constructor
  · rintro ⟨c, h⟩
    rw [utf8Char_core] at h
    exact ⟨_, charShape_char c, h⟩
  · rintro ⟨q, hq, h⟩
    obtain ⟨c, rfl⟩ := char_charShape hq
    exact ⟨c, by rw [utf8Char_core]; exact h⟩

theorem StartsChar.mono {p q : Bytes} (h : StartsChar q) (hp : p <+: q) : StartsChar p := by
  obtain ⟨c, h⟩ := h
  exact ⟨c, hp.trans h⟩

theorem starts_one {a : UInt8} : StartsChar [a] ↔ utf8_char_width a ≠ 0 := by
  rw [starts_iff]
  constructor
  · rintro ⟨q, hq, h⟩
    cases hq <;> simp only [List.cons_prefix_cons] at h <;> obtain ⟨rfl, -⟩ := h <;> omega
  · intro h
    have hw : utf8_char_width a = 1 ∨ utf8_char_width a = 2 ∨ utf8_char_width a = 3 ∨ utf8_char_width a = 4 := by
      revert h
      unfold utf8_char_width
      repeat' split
      all_goals simp
    rcases hw with hw | hw | hw | hw
    · exact ⟨_, .one hw, List.prefix_refl _⟩
    · exact ⟨_, .two (b := 0x80) hw (by decide), by simp⟩
    · refine ⟨_, .three (b := if a.toNat = 0xE0 then 0xA0 else 0x80) (c := 0x80) hw ?_ (by decide), by simp⟩
      rw [width_three] at hw
      unfold second3
      split <;> simp <;> omega
    · refine ⟨_, .four (b := if a.toNat = 0xF0 then 0x90 else 0x80) (c := 0x80) (d := 0x80) hw ?_ (by decide) (by decide), by simp⟩
      rw [width_four] at hw
      unfold second4
      split <;> simp <;> omega

theorem starts_two {a b : UInt8} : StartsChar [a, b] ↔ (utf8_char_width a = 2 ∧ isCont b = true) ∨
    (utf8_char_width a = 3 ∧ second3 a b = true) ∨ (utf8_char_width a = 4 ∧ second4 a b = true) := by
  rw [starts_iff]
  constructor
  · rintro ⟨q, hq, h⟩
    cases hq <;> simp only [List.cons_prefix_cons, List.prefix_nil, reduceCtorEq, and_false] at h
    · obtain ⟨rfl, rfl, -⟩ := h; simp_all
    · obtain ⟨rfl, rfl, -⟩ := h; simp_all
    · obtain ⟨rfl, rfl, -⟩ := h; simp_all
  · rintro (⟨h, h2⟩ | ⟨h, h2⟩ | ⟨h, h2⟩)
    · exact ⟨_, .two h h2, List.prefix_refl _⟩
    · exact ⟨_, .three (c := 0x80) h h2 (by decide), by simp⟩
    · exact ⟨_, .four (c := 0x80) (d := 0x80) h h2 (by decide) (by decide), by simp⟩

theorem starts_three {a b c : UInt8} : StartsChar [a, b, c] ↔
    (utf8_char_width a = 3 ∧ second3 a b = true ∧ isCont c = true) ∨
    (utf8_char_width a = 4 ∧ second4 a b = true ∧ isCont c = true) := by
  rw [starts_iff]
  constructor
  · rintro ⟨q, hq, h⟩
    cases hq <;> simp only [List.cons_prefix_cons, List.prefix_nil, reduceCtorEq, and_false] at h
    · obtain ⟨rfl, rfl, rfl, -⟩ := h; simp_all
    · obtain ⟨rfl, rfl, rfl, -⟩ := h; simp_all
  · rintro (⟨h, h2, h3⟩ | ⟨h, h2, h3⟩)
    · exact ⟨_, .three h h2 h3, List.prefix_refl _⟩
    · exact ⟨_, .four (d := 0x80) h h2 h3 (by decide), by simp⟩

theorem starts_four {a b c d : UInt8} : StartsChar [a, b, c, d] ↔
    utf8_char_width a = 4 ∧ second4 a b = true ∧ isCont c = true ∧ isCont d = true := by
  rw [starts_iff]
  constructor
  · rintro ⟨q, hq, h⟩
    cases hq <;> simp only [List.cons_prefix_cons, List.prefix_nil, reduceCtorEq, and_false] at h
    obtain ⟨rfl, rfl, rfl, rfl, -⟩ := h; simp_all
  · rintro ⟨h, h2, h3, h4⟩
    exact ⟨_, .four h h2 h3 h4, List.prefix_refl _⟩

/-- The part of `Faulty` about what follows the text. -/
def FaultLen (rest : Bytes) : Option Nat → Prop
  | none => StartsChar rest
  | some k => ¬ StartsChar rest ∧ 1 ≤ k ∧ k ≤ rest.length ∧ (k = 1 ∨ StartsChar (rest.take k)) ∧
      ∀ j, k < j → ¬ StartsChar (rest.take j)

theorem faultLen_some {rest : Bytes} {k : Nat} (h1 : 1 ≤ k) (hl : k ≤ rest.length) (hk : k = 1 ∨ StartsChar (rest.take k))
    (h : ¬ StartsChar (rest.take (k + 1))) : FaultLen rest (some k) := by
  refine ⟨fun h' => h (h'.mono (List.take_prefix _ _)), h1, hl, hk, fun j hj h' => h (h'.mono ?_)⟩
  have : rest.take (k + 1) = (rest.take j).take (k + 1) := by
    rw [List.take_take, Nat.min_eq_left hj]
  rw [this]
  exact List.take_prefix _ _

theorem validation_char {p : Bytes} (h : CharShape p) (off : Nat) (rest : Bytes) :
    run_utf8_validation off (p ++ rest) = run_utf8_validation (off + p.length) rest := by
  cases h with
  | one h => rw [List.cons_append, run_utf8_validation.eq_def]; simp [h]
  | two h h2 => rw [List.cons_append, run_utf8_validation.eq_def]; simp [h, h2]
  | three h h2 h3 => rw [List.cons_append, run_utf8_validation.eq_def]; simp [h, h2, h3]
  | four h h2 h3 h4 => rw [List.cons_append, run_utf8_validation.eq_def]; simp [h, h2, h3, h4]

theorem validation_fault {rest : Bytes} (hr : rest ≠ []) (h : ∀ p, CharShape p → ¬ p <+: rest) (off : Nat) :
    ∃ el, run_utf8_validation off rest = some ⟨off, el⟩ ∧ FaultLen rest el := by
  cases rest with
  | nil => exact absurd rfl hr
  | cons a rest =>
    unfold run_utf8_validation
    split
    · next hw => exact absurd (by simp) (h _ (.one hw))
    · next hw =>
      split
      · exact ⟨_, rfl, starts_one.2 (by omega)⟩
      · next b rest =>
        split
        · next hb => exact absurd (by simp) (h _ (.two hw hb))
        · next hb =>
          exact ⟨_, rfl, faultLen_some (by omega) (by simp) (.inl rfl) (by simp [starts_two, hw, hb])⟩
    · next hw =>
      split
      · exact ⟨_, rfl, starts_one.2 (by omega)⟩
      · next b rest =>
        split
        · next hb =>
          split
          · exact ⟨_, rfl, starts_two.2 (by simp [hw, hb])⟩
          · next c rest =>
            split
            · next hc => exact absurd (by simp) (h _ (.three hw hb hc))
            · next hc =>
              exact ⟨_, rfl, faultLen_some (by omega) (by simp) (.inr (by simp [starts_two, hw, hb]))
                (by simp [starts_three, hw, hc])⟩
        · next hb =>
          exact ⟨_, rfl, faultLen_some (by omega) (by simp) (.inl rfl) (by simp [starts_two, hw, hb])⟩
    · next hw =>
      split
      · exact ⟨_, rfl, starts_one.2 (by omega)⟩
      · next b rest =>
        split
        · next hb =>
          split
          · exact ⟨_, rfl, starts_two.2 (by simp [hw, hb])⟩
          · next c rest =>
            split
            · next hc =>
              split
              · exact ⟨_, rfl, starts_three.2 (by simp [hw, hb, hc])⟩
              · next d rest =>
                split
                · next hd => exact absurd (by simp) (h _ (.four hw hb hc hd))
                · next hd =>
                  exact ⟨_, rfl, faultLen_some (by omega) (by simp) (.inr (by simp [starts_three, hw, hb, hc]))
                    (by simp [starts_four, hd])⟩
            · next hc =>
              exact ⟨_, rfl, faultLen_some (by omega) (by simp) (.inr (by simp [starts_two, hw, hb]))
                (by simp [starts_three, hw, hc])⟩
        · next hb =>
          exact ⟨_, rfl, faultLen_some (by omega) (by simp) (.inl rfl) (by simp [starts_two, hw, hb])⟩
    · next h1 h2 h3 h4 =>
      refine ⟨_, rfl, faultLen_some (by omega) (by simp) (.inl rfl) fun hs => ?_⟩
      have := starts_one.1 (hs.mono (p := [a]) (by simp))
      revert h1 h2 h3 h4 this
      unfold utf8_char_width
      repeat' split
      all_goals simp

theorem charShape_ne {p : Bytes} (h : CharShape p) : 0 < p.length := by
  cases h <;> simp

/-- A byte string is a text, or a text with something faulty after it, and the check says so. -/
theorem validation (v : Bytes) (off : Nat) :
    (∃ text, v = utf8Bytes text ∧ run_utf8_validation off v = none) ∨
    ∃ text rest el, v = utf8Bytes text ++ rest ∧ rest ≠ [] ∧ (∀ c, ¬ utf8Char c <+: rest) ∧ FaultLen rest el ∧
      run_utf8_validation off v = some ⟨off + (utf8Bytes text).length, el⟩ := by
  generalize hn : v.length = n
  induction n using Nat.strongRecOn generalizing v off with
  | ind n ih =>
    subst hn
    by_cases hv : v = []
    · subst hv
      exact .inl ⟨[], rfl, rfl⟩
    by_cases hs : ∃ p, CharShape p ∧ p <+: v
    · obtain ⟨p, hp, rest, rfl⟩ := hs
      have hlen := charShape_ne hp
      obtain ⟨c, hc⟩ := char_charShape hp
      rw [validation_char hp]
      rcases ih rest.length (by simp; omega) rest (off + p.length) rfl with ⟨t, h1, h2⟩ | ⟨t, r, el, h1, h2, h3, h4, h5⟩
      · exact .inl ⟨c :: t, by rw [utf8Bytes, hc, h1], h2⟩
      · refine .inr ⟨c :: t, r, el, by rw [utf8Bytes, hc, h1, List.append_assoc], h2, h3, h4, ?_⟩
        rw [h5, utf8Bytes, hc, List.length_append, Nat.add_assoc]
    · have hs : ∀ p, CharShape p → ¬ p <+: v := fun p h1 h2 => hs ⟨p, h1, h2⟩
      obtain ⟨el, h1, h2⟩ := validation_fault hv hs off
      exact .inr ⟨[], v, el, rfl, hv, fun c => hs _ (charShape_char c), h2, by simpa [utf8Bytes] using h1⟩

/-- Where a text ends is determined by what follows. -/
theorem text_unique {t t' : List Char} {r r' : Bytes} (h : utf8Bytes t ++ r = utf8Bytes t' ++ r')
    (hr : ∀ c, ¬ utf8Char c <+: r) (hr' : ∀ c, ¬ utf8Char c <+: r') : t = t' ∧ r = r' := by
  induction t generalizing t' with
  | nil =>
    cases t' with
    | nil => exact ⟨rfl, h⟩
    | cons c t' => exact absurd ⟨_, by rw [← List.append_assoc]; exact h.symm⟩ (hr c)
  | cons c t ih =>
    cases t' with
    | nil => exact absurd ⟨_, by rw [← List.append_assoc]; exact h⟩ (hr' c)
    | cons c' t' =>
      have key : c = c' ∧ utf8Bytes t ++ r = utf8Bytes t' ++ r' := by
        simp only [utf8Bytes, List.append_assoc] at h
        have h1 := charShape_char c
        have h2 := charShape_char c'
        have hl : (utf8Char c).length = (utf8Char c').length := by
          generalize utf8Char c = p at h h1
          generalize utf8Char c' = q at h h2
          cases h1 <;> cases h2 <;> simp only [List.cons_append, List.cons.injEq] at h <;>
            obtain ⟨rfl, -⟩ := h <;> first | rfl | omega
        obtain ⟨h3, h4⟩ := List.append_inj h hl
        refine ⟨?_, h4⟩
        have e1 := utf8Decode_bytes [c]
        have e2 := utf8Decode_bytes [c']
        simp only [utf8Bytes, List.append_nil] at e1 e2
        rw [h3, e2] at e1
        simpa using e1.symm
      obtain ⟨rfl, hrest⟩ := key
      obtain ⟨rfl, rfl⟩ := ih hrest
      exact ⟨rfl, rfl⟩

theorem faultLen_unique {rest : Bytes} {el el' : Option Nat} (h : FaultLen rest el) (h' : FaultLen rest el') : el = el' := by
  cases el with
  | none =>
    cases el' with
    | none => rfl
    | some k => exact absurd h h'.1
  | some k =>
    cases el' with
    | none => exact absurd h' h.1
    | some k' =>
      obtain ⟨-, h1, -, h2, h3⟩ := h
      obtain ⟨-, h1', -, h2', h3'⟩ := h'
      congr 1
      rcases Nat.lt_trichotomy k k' with hk | hk | hk
      · rcases h2' with rfl | h2'
        · omega
        · exact absurd h2' (h3 k' hk)
      · exact hk
      · rcases h2 with rfl | h2
        · omega
        · exact absurd h2 (h3' k hk)

/-- The check finds the fault. -/
theorem validation_iff {v : Bytes} {e : Utf8Error} : run_utf8_validation 0 v = some e ↔ Faulty v e := by
  constructor
  · intro h
    rcases validation v 0 with ⟨t, -, h2⟩ | ⟨t, r, el, h1, h2, h3, h4, h5⟩
    · rw [h2] at h; cases h
    · rw [h5] at h
      cases h
      refine ⟨⟨t, r, by rw [← utf8Bytes_core, h1], by simp [utf8Bytes_core], h2, fun c => ?_, by cases el <;> exact h4⟩⟩
      rw [utf8Char_core]
      exact h3 c
  · rintro ⟨t, r, h1, h2, h3, h4, h5⟩
    simp only [utf8Char_core] at h4
    rw [← utf8Bytes_core] at h1 h2
    have h5 : FaultLen r e.error_len := by
      cases he : e.error_len <;> rw [he] at h5 <;> exact h5
    rcases validation v 0 with ⟨t', h1', -⟩ | ⟨t', r', el, h1', -, h3', h4', h5'⟩
    · have := text_unique (t := t) (t' := t') (r := r) (r' := []) (by rw [← h1, h1', List.append_nil]) h4
        (fun c hc => by
          have := charShape_ne (charShape_char c)
          rw [List.prefix_nil] at hc
          simp [hc] at this)
      exact absurd this.2 h3
    · obtain ⟨rfl, rfl⟩ := text_unique (h1.symm.trans h1') h4 h3'
      obtain rfl := faultLen_unique h5 h4'
      rw [h5']
      cases e
      simp_all

theorem Faulty.unique {v : Bytes} {e e' : Utf8Error} (h : Faulty v e) (h' : Faulty v e') : e = e' := by
  have h1 := validation_iff.2 h
  rw [validation_iff.2 h'] at h1
  exact (Option.some.inj h1).symm

theorem validation_none {v : Bytes} : run_utf8_validation 0 v = none ↔ ∃ s, utf8Decode v = some s := by
  constructor
  · intro h
    rcases validation v 0 with ⟨t, rfl, -⟩ | ⟨t, r, el, h1, h2, h3, h4, h5⟩
    · exact ⟨t, utf8Decode_bytes t⟩
    · rw [h5] at h; cases h
  · rintro ⟨s, hs⟩
    have hb := utf8Bytes_decode hs
    cases h : run_utf8_validation 0 v with
    | none => rfl
    | some e =>
      obtain ⟨t, r, h1, -, h3, h4, -⟩ := validation_iff.1 h
      simp only [utf8Char_core] at h4
      rw [← utf8Bytes_core] at h1
      have := text_unique (t := t) (t' := s) (r := r) (r' := []) (by rw [← h1, hb, List.append_nil]) h4
        (fun c hc => by
          have := charShape_ne (charShape_char c)
          rw [List.prefix_nil] at hc
          simp [hc] at this)
      exact absurd this.2 h3

/-- The error of `from_utf8`, where it has one. -/
def utf8Fault (v : Bytes) : Utf8Error := (run_utf8_validation 0 v).getD ⟨0, none⟩

theorem from_utf8_eq (v : Bytes) :
    from_utf8 v = match utf8Decode v with
      | none => .error (utf8Fault v)
      | some s => .ok s := by
  unfold from_utf8 utf8Fault
  cases hd : utf8Decode v with
  | some s => rw [validation_none.2 ⟨s, hd⟩]; rfl
  | none =>
    cases h : run_utf8_validation 0 v with
    | none =>
      obtain ⟨s, hs⟩ := validation_none.1 h
      rw [hd] at hs; cases hs
    | some e => rfl

theorem utf8Fault_spec {v : Bytes} (h : utf8Decode v = none) : Faulty v (utf8Fault v) := by
  unfold utf8Fault
  cases hr : run_utf8_validation 0 v with
  | none =>
    obtain ⟨s, hs⟩ := validation_none.1 hr
    rw [h] at hs; cases hs
  | some e => exact validation_iff.1 hr

end Xdr
