import Verif.Rpcgen.Number
import Verif.Spec.Numbers
import Verif.Spec.XdrText
/-!
# Lemmas on numeric literals
-/

namespace Xdr.Rpcgen

theorem IntTy.max_pos (t : IntTy) : 16 ≤ t.max := by cases t <;> decide
theorem IntTy.min_nonpos (t : IntTy) : t.min ≤ 0 := by cases t <;> decide

theorem IntTy.checked_some {t : IntTy} {v : Int} (h1 : t.min ≤ v) (h2 : v ≤ t.max) :
    t.checked v = some v := by simp [checked, h1, h2]

theorem IntTy.checked_none {t : IntTy} {v : Int} (h : ¬ (t.min ≤ v ∧ v ≤ t.max)) :
    t.checked v = none := by simp [checked, h]

theorem numeral_nonneg (b : Nat) (s : Str) : (0 : Int) ≤ numeral b s := Int.natCast_nonneg _

/-- A positive loop gives the Horner value, or fails if that is beyond the type. -/
theorem digitsLoop_pos (t : IntTy) (radix : Nat) (hr : 1 ≤ radix) (cs : Str)
    (hd : ∀ c ∈ cs, toDigit radix c = some (digitValue c)) (acc : Nat) (ha : (acc : Int) ≤ t.max) :
    digitsLoop t radix false cs acc =
      if ((acc * radix ^ cs.length + numeral radix cs : Nat) : Int) ≤ t.max then
        some ((acc * radix ^ cs.length + numeral radix cs : Nat) : Int) else none := by
  have hmin := t.min_nonpos
  induction cs generalizing acc with
  | nil => simp [digitsLoop, numeral, ha]
  | cons c cs ih =>
    have hp : 1 ≤ radix ^ cs.length := Nat.one_le_pow _ _ hr
    have hnum : acc * radix ^ (c :: cs).length + numeral radix (c :: cs)
        = (acc * radix + digitValue c) * radix ^ cs.length + numeral radix cs := by
      simp only [List.length_cons, numeral, Nat.pow_succ]
      rw [Nat.add_mul, Nat.add_assoc, Nat.mul_assoc, Nat.mul_comm radix]
    rw [hnum]
    have hle : acc * radix + digitValue c ≤
        (acc * radix + digitValue c) * radix ^ cs.length + numeral radix cs :=
      Nat.le_trans (Nat.le_mul_of_pos_right _ hp) (Nat.le_add_right _ _)
    have hd' := hd c List.mem_cons_self
    have hcast : ((acc * radix : Nat) : Int) = (acc : Int) * radix := by simp
    by_cases h1 : ((acc * radix + digitValue c : Nat) : Int) ≤ t.max
    · have h0 : ((acc * radix : Nat) : Int) ≤ t.max := by omega
      simp only [digitsLoop, ← hcast]
      rw [IntTy.checked_some (by omega) h0]
      simp only [hd', Bool.false_eq_true, if_false]
      rw [IntTy.checked_some (by omega) (by omega)]
      have := ih (fun x hx => hd x (List.mem_cons_of_mem _ hx)) (acc * radix + digitValue c) h1
      simpa using this
    · have h2 : ¬ (((acc * radix + digitValue c) * radix ^ cs.length + numeral radix cs : Nat) : Int)
          ≤ t.max := by omega
      rw [if_neg h2]
      simp only [digitsLoop, ← hcast]
      by_cases h0 : ((acc * radix : Nat) : Int) ≤ t.max
      · rw [IntTy.checked_some (by omega) h0]
        simp only [hd', Bool.false_eq_true, if_false]
        rw [IntTy.checked_none (by omega)]
      · rw [IntTy.checked_none (by omega)]

/-- A negative loop gives minus the Horner value, or fails if that is beyond the type. -/
theorem digitsLoop_neg (t : IntTy) (radix : Nat) (hr : 1 ≤ radix) (cs : Str)
    (hd : ∀ c ∈ cs, toDigit radix c = some (digitValue c)) (acc : Nat) (ha : t.min ≤ -(acc : Int)) :
    digitsLoop t radix true cs (-(acc : Int)) =
      if t.min ≤ -((acc * radix ^ cs.length + numeral radix cs : Nat) : Int) then
        some (-((acc * radix ^ cs.length + numeral radix cs : Nat) : Int)) else none := by
  have hmax := t.max_pos
  induction cs generalizing acc with
  | nil => simp [digitsLoop, numeral, ha]
  | cons c cs ih =>
    have hp : 1 ≤ radix ^ cs.length := Nat.one_le_pow _ _ hr
    have hnum : acc * radix ^ (c :: cs).length + numeral radix (c :: cs)
        = (acc * radix + digitValue c) * radix ^ cs.length + numeral radix cs := by
      simp only [List.length_cons, numeral, Nat.pow_succ]
      rw [Nat.add_mul, Nat.add_assoc, Nat.mul_assoc, Nat.mul_comm radix]
    rw [hnum]
    have hle : acc * radix + digitValue c ≤
        (acc * radix + digitValue c) * radix ^ cs.length + numeral radix cs :=
      Nat.le_trans (Nat.le_mul_of_pos_right _ hp) (Nat.le_add_right _ _)
    have hd' := hd c List.mem_cons_self
    have hcast : -((acc * radix : Nat) : Int) = -(acc : Int) * radix := by simp [Int.neg_mul]
    by_cases h1 : t.min ≤ -((acc * radix + digitValue c : Nat) : Int)
    · have h0 : t.min ≤ -((acc * radix : Nat) : Int) := by omega
      simp only [digitsLoop, ← hcast]
      rw [IntTy.checked_some h0 (by omega)]
      simp only [hd', if_true]
      rw [IntTy.checked_some (by omega) (by omega)]
      have e : -((acc * radix : Nat) : Int) - (digitValue c : Int)
          = -((acc * radix + digitValue c : Nat) : Int) := by omega
      rw [e]
      exact ih (fun x hx => hd x (List.mem_cons_of_mem _ hx)) (acc * radix + digitValue c) h1
    · have h2 : ¬ t.min ≤
          -(((acc * radix + digitValue c) * radix ^ cs.length + numeral radix cs : Nat) : Int) := by omega
      rw [if_neg h2]
      simp only [digitsLoop, ← hcast]
      by_cases h0 : t.min ≤ -((acc * radix : Nat) : Int)
      · rw [IntTy.checked_some h0 (by omega)]
        simp only [hd', if_true]
        rw [IntTy.checked_none (by omega)]
      · rw [IntTy.checked_none (by omega)]

theorem isDigit_iff {c : Char} : isDigit c = true ↔ 48 ≤ c.toNat ∧ c.toNat ≤ 57 := by
  simp [isDigit]

theorem toDigit_of_digit {c : Char} (h : isDigit c = true) {radix : Nat}
    (hr : c.toNat - 48 < radix) : toDigit radix c = some (digitValue c) := by
  have h' := isDigit_iff.1 h
  have hv : digitValue c = c.toNat - 48 := by
    unfold digitValue
    rw [if_neg (by omega), if_neg (by omega)]
  simp [toDigit, h, hv, hr]

theorem toDigit_dec {c : Char} (h : isDigit c = true) : toDigit 10 c = some (digitValue c) := by
  have h' := isDigit_iff.1 h
  exact toDigit_of_digit h (by omega)

theorem toDigit_oct {c : Char} (h : IsOctDigit c) : toDigit 8 c = some (digitValue c) := by
  unfold IsOctDigit at h
  exact toDigit_of_digit (isDigit_iff.2 (by omega)) (by omega)

theorem toDigit_hex {c : Char} (h : IsHexDigit c) : toDigit 16 c = some (digitValue c) := by
  rcases h with h | h | h
  · have h' := isDigit_iff.1 h
    exact toDigit_of_digit h (by omega)
  · have hd : isDigit c = false := by simp [isDigit]; omega
    have hl : isLower c = false := by simp [isLower]; omega
    have hu : isUpper c = true := by simp [isUpper]; omega
    have hv : digitValue c = c.toNat - 65 + 10 := by
      unfold digitValue
      rw [if_neg (by omega), if_pos (by omega)]
      omega
    simp only [toDigit, hd, hl, hu, Bool.false_eq_true, if_false, if_true, hv]
    rw [if_pos (by omega)]
  · have hd : isDigit c = false := by simp [isDigit]; omega
    have hl : isLower c = true := by simp [isLower]; omega
    have hv : digitValue c = c.toNat - 97 + 10 := by
      unfold digitValue
      rw [if_pos (by omega)]
      omega
    simp only [toDigit, hd, hl, Bool.false_eq_true, if_false, if_true, hv]
    rw [if_pos (by omega)]

/-- A text of digits is read without a sign. -/
theorem from_str_radix_digits (t : IntTy) (radix : Nat) {c : Char} {cs : Str}
    (h1 : c ≠ '+') (h2 : c ≠ '-') :
    from_str_radix t radix (c :: cs) = digitsLoop t radix false (c :: cs) 0 := by
  unfold from_str_radix
  split <;> simp_all

theorem from_str_radix_pos (t : IntTy) (radix : Nat) (hr : 1 ≤ radix) (cs : Str) (hne : cs ≠ [])
    (hd : ∀ c ∈ cs, toDigit radix c = some (digitValue c)) :
    from_str_radix t radix cs =
      if (numeral radix cs : Int) ≤ t.max then some (numeral radix cs : Int) else none := by
  cases cs with
  | nil => exact absurd rfl hne
  | cons c cs =>
    have hp : toDigit radix '+' = none := by
      have e : (if isDigit '+' then some ('+'.toNat - 48)
        else if isLower '+' then some ('+'.toNat - 97 + 10)
        else if isUpper '+' then some ('+'.toNat - 65 + 10) else none) = none := by decide
      simp only [toDigit, e]
    have hm : toDigit radix '-' = none := by
      have e : (if isDigit '-' then some ('-'.toNat - 48)
        else if isLower '-' then some ('-'.toNat - 97 + 10)
        else if isUpper '-' then some ('-'.toNat - 65 + 10) else none) = none := by decide
      simp only [toDigit, e]
    have hc := hd c List.mem_cons_self
    rw [from_str_radix_digits t radix (by rintro rfl; rw [hp] at hc; cases hc)
      (by rintro rfl; rw [hm] at hc; cases hc)]
    have := digitsLoop_pos t radix hr (c :: cs) hd 0 (by have := t.max_pos; simp; omega)
    simpa using this

theorem IntTy.low_eq (t : IntTy) : t.low = t.min := by cases t <;> rfl

theorem IntTy.high_eq (t : IntTy) : t.high = t.max := by cases t <;> rfl

/-- Integers a type holds. -/
def IntTy.Holds (t : IntTy) (v : Int) : Prop := t.min ≤ v ∧ v ≤ t.max

instance (t : IntTy) (v : Int) : Decidable (t.Holds v) := inferInstanceAs (Decidable (_ ∧ _))

theorem digitValue_pos {c : Char} (h : isDigit c = true) (h0 : c ≠ '0') : 1 ≤ digitValue c := by
  have h' := isDigit_iff.1 h
  have hne : c.toNat ≠ 48 := by
    intro he
    apply h0
    have : Char.ofNat c.toNat = Char.ofNat 48 := by rw [he]
    rwa [Char.ofNat_toNat] at this
  unfold digitValue
  rw [if_neg (by omega), if_neg (by omega)]
  omega

theorem tryInto_eq {c : Constant} {s : Str} (h : ConstantText c s) (t : IntTy) :
    c.tryInto t = if t.Holds c.number then some c.number else none := by
  have hpos : ∀ n : Nat, t.Holds (n : Int) ↔ (n : Int) ≤ t.max := fun n => by
    have := t.min_nonpos
    unfold IntTy.Holds
    omega
  cases c with
  | hex d =>
    obtain ⟨-, hne, hd⟩ := h
    simp only [Constant.tryInto, Constant.number, hpos]
    exact from_str_radix_pos t 16 (by decide) d hne fun c hc => toDigit_hex (hd c hc)
  | octal d =>
    obtain ⟨-, hne, hd⟩ := h
    simp only [Constant.tryInto, Constant.number, hpos]
    exact from_str_radix_pos t 8 (by decide) d hne fun c hc => toDigit_oct (hd c hc)
  | decimal d =>
    obtain ⟨-, h⟩ := h
    rcases h with rfl | ⟨c, ds, rfl | rfl, hc, h0, hds⟩
    · have e : (Constant.decimal c!"0").number = (numeral 10 c!"0" : Nat) := rfl
      rw [e]
      simp only [Constant.tryInto, hpos]
      exact from_str_radix_pos t 10 (by decide) _ (by simp) (by decide)
    · have hm : c ≠ '-' := by rintro rfl; revert hc; decide
      have e : (Constant.decimal (c :: ds)).number = (numeral 10 (c :: ds) : Nat) := by
        unfold Constant.number
        split <;> simp_all
      rw [e]
      simp only [Constant.tryInto, hpos]
      refine from_str_radix_pos t 10 (by decide) _ (by simp) fun x hx => ?_
      rcases List.mem_cons.1 hx with rfl | hx
      · exact toDigit_dec hc
      · exact toDigit_dec (hds x hx)
    · have hv := digitValue_pos hc h0
      have hn : 1 ≤ numeral 10 (c :: ds) := by
        simp only [numeral]
        have : 1 ≤ 10 ^ ds.length := Nat.one_le_pow _ _ (by decide)
        have := Nat.mul_le_mul hv this
        omega
      have hdig : ∀ x ∈ c :: ds, toDigit 10 x = some (digitValue x) := fun x hx => by
        rcases List.mem_cons.1 hx with rfl | hx
        · exact toDigit_dec hc
        · exact toDigit_dec (hds x hx)
      have hf : from_str_radix t 10 ('-' :: c :: ds) =
          if t.signed then digitsLoop t 10 true (c :: ds) 0
          else digitsLoop t 10 false ('-' :: c :: ds) 0 := rfl
      have hmax := t.max_pos
      simp only [Constant.tryInto, Constant.number, hf]
      by_cases hs : t.signed = true
      · rw [if_pos hs]
        have := digitsLoop_neg t 10 (by decide) (c :: ds) hdig 0 (by have := t.min_nonpos; simpa using this)
        simp only [Int.natCast_zero, Int.neg_zero, Nat.zero_mul, Nat.zero_add] at this
        rw [this]
        have : t.Holds (-(numeral 10 (c :: ds) : Int)) ↔ t.min ≤ -(numeral 10 (c :: ds) : Int) := by
          unfold IntTy.Holds
          omega
        simp only [this]
      · rw [if_neg hs]
        have h1 : digitsLoop t 10 false ('-' :: c :: ds) 0 = none := by
          have e : toDigit 10 '-' = none := by decide
          simp only [digitsLoop, e]
          split <;> rfl
        have h2 : ¬ t.Holds (-(numeral 10 (c :: ds) : Int)) := by
          have : t.min = 0 := by cases t <;> first | rfl | exact absurd rfl hs
          unfold IntTy.Holds
          omega
        rw [h1, if_neg h2]

end Xdr.Rpcgen
