import Verif.Model.SynEnum
import Verif.Spec.RustCode
import Verif.Rpcgen.Meaning
import Mathlib.Data.List.Forall2
/-!
# Lemmas: `syn` on the enums rpcgen writes
-/

namespace Xdr.Derive

open Rpcgen (Str Token RIdent Delim kw commaSep RTy)
open RustCode

theorem onFirst_ne (t : Token) (ps : List (List Token)) : onFirst t ps ≠ [] := by
  cases ps <;> simp [onFirst]

theorem splitCommas_ne (ts : List Token) : splitCommas ts ≠ [] := by
  unfold splitCommas
  split
  · simp
  · split
    · simp
    · exact onFirst_ne _ _
  · exact onFirst_ne _ _

theorem splitCommas_cons {t : Token} (ht : t ≠ .op c!",") {ts p : List Token} {ps : List (List Token)}
    (h : splitCommas ts = p :: ps) : splitCommas (t :: ts) = (t :: p) :: ps := by
  cases t with
  | op x => simp only [splitCommas, h]; rw [if_neg fun hx => ht (by rw [hx])]; rfl
  | _ => simp only [splitCommas, h]; rfl

theorem splitCommas_comma (ts : List Token) : splitCommas (.op c!"," :: ts) = [] :: splitCommas ts := by
  simp [splitCommas]

theorem splitCommas_append {a : List Token} (ha : .op c!"," ∉ a) (b : List Token) :
    splitCommas (a ++ .op c!"," :: b) = a :: splitCommas b := by
  induction a with
  | nil => exact splitCommas_comma b
  | cons t a ih =>
    rw [List.mem_cons, not_or] at ha
    exact splitCommas_cons (Ne.symm ha.1) (ih ha.2)

theorem splitCommas_last {a : List Token} (ha : .op c!"," ∉ a) : splitCommas a = [a] := by
  induction a with
  | nil => rfl
  | cons t a ih =>
    rw [List.mem_cons, not_or] at ha
    exact splitCommas_cons (Ne.symm ha.1) (ih ha.2)

theorem splitCommas_commaSep {xs : List (List Token)} (hne : xs ≠ []) (h : ∀ x ∈ xs, .op c!"," ∉ x) :
    splitCommas (commaSep xs) = xs := by
  induction xs with
  | nil => exact absurd rfl hne
  | cons x xs ih =>
    rw [List.forall_mem_cons] at h
    cases xs with
    | nil => simp only [commaSep]; exact splitCommas_last h.1
    | cons y xs =>
      simp only [commaSep]
      rw [splitCommas_append h.1, ih (by simp) h.2]

theorem dropLastEmpty_eq {ps : List (List Token)} (h : ∀ p ∈ ps, p ≠ []) : dropLastEmpty ps = ps := by
  unfold dropLastEmpty
  split
  · next hl => exact absurd rfl (h [] (List.mem_of_getLast? hl))
  · rfl

theorem dropLastEmpty_empty : dropLastEmpty [[]] = [] := rfl

/-! ## Types -/

/-- Put before the first part. -/
def onHead (a : List Token) : List (List Token) → List (List Token)
  | [] => [a]
  | p :: ps => (a ++ p) :: ps

theorem splitTypes_ne (d : Nat) (ts : List Token) : splitTypes d ts ≠ [] := by
  unfold splitTypes
  split
  · simp
  · split
    · simp
    · split
      · exact onFirst_ne _ _
      · split <;> exact onFirst_ne _ _
  · exact onFirst_ne _ _

theorem onFirst_eq (t : Token) (ps : List (List Token)) : onFirst t ps = onHead [t] ps := by
  cases ps <;> rfl

theorem splitTypes_other {d : Nat} {t : Token} (ht : ∀ x, t ≠ .op x) (ts : List Token) :
    splitTypes d (t :: ts) = onHead [t] (splitTypes d ts) := by
  cases t with
  | op x => exact absurd rfl (ht x)
  | _ => simp only [splitTypes, onFirst_eq]

theorem splitTypes_colons {d : Nat} (ts : List Token) :
    splitTypes d (.op c!"::" :: ts) = onHead [.op c!"::"] (splitTypes d ts) := by
  simp [splitTypes, onFirst_eq]

theorem splitTypes_open {d : Nat} (ts : List Token) :
    splitTypes d (.op c!"<" :: ts) = onHead [.op c!"<"] (splitTypes (d + 1) ts) := by
  simp [splitTypes, onFirst_eq]

theorem splitTypes_close {d : Nat} (ts : List Token) :
    splitTypes (d + 1) (.op c!">" :: ts) = onHead [.op c!">"] (splitTypes d ts) := by
  simp [splitTypes, onFirst_eq]

theorem splitTypes_comma (ts : List Token) : splitTypes 0 (.op c!"," :: ts) = [] :: splitTypes 0 ts := by
  simp [splitTypes]

theorem splitTypes_angle {t : RTy} {name : Str}
    (ih : ∀ d rest, splitTypes d (t.tokens ++ rest) = onHead t.tokens (splitTypes d rest)) (d : Nat) (rest : List Token) :
    splitTypes d ((kw name :: .op c!"<" :: t.tokens ++ [.op c!">"]) ++ rest) =
      onHead (kw name :: .op c!"<" :: t.tokens ++ [.op c!">"]) (splitTypes d rest) := by
  have hne := splitTypes_ne d rest
  simp only [List.cons_append, List.append_assoc, List.nil_append]
  rw [splitTypes_other (by simp [kw]), splitTypes_open, ih, splitTypes_close]
  cases h : splitTypes d rest with
  | nil => exact absurd h hne
  | cons p ps => simp [onHead]

/-- A type stays together. -/
theorem splitTypes_type (t : RTy) : ∀ (d : Nat) (rest : List Token),
    splitTypes d (t.tokens ++ rest) = onHead t.tokens (splitTypes d rest) := by
  induction t with
  | array t len cast _ => intro d rest; exact splitTypes_other (by simp) rest
  | vec t ih => exact splitTypes_angle ih
  | option t ih => exact splitTypes_angle ih
  | box t ih => exact splitTypes_angle ih
  | variableArray =>
    intro d rest
    have hne := splitTypes_ne d rest
    simp only [RTy.tokens, List.cons_append, List.nil_append]
    rw [splitTypes_other (by simp [kw]), splitTypes_colons, splitTypes_other (by simp [kw]), splitTypes_colons,
      splitTypes_other (by simp [kw])]
    cases h : splitTypes d rest with
    | nil => exact absurd h hne
    | cons p ps => simp [onHead]
  | _ => intro d rest; exact splitTypes_other (by simp [kw]) rest

theorem tokens_ne (t : RTy) : t.tokens ≠ [] := by
  cases t <;> simp [RTy.tokens]

theorem splitTypes_types {ts : List RTy} (hne : ts ≠ []) :
    splitTypes 0 (commaSep (ts.map RTy.tokens)) = ts.map RTy.tokens := by
  induction ts with
  | nil => exact absurd rfl hne
  | cons t ts ih =>
    cases ts with
    | nil =>
      have := splitTypes_type t 0 []
      simpa [commaSep, splitTypes, onHead] using this
    | cons u ts =>
      simp only [List.map_cons, commaSep] at ih ⊢
      rw [splitTypes_type, splitTypes_comma, ih (by simp)]
      simp [onHead]

theorem skipAttrs_type (t : RTy) : skipAttrs t.tokens = t.tokens := by
  cases t <;> simp [RTy.tokens, kw, skipAttrs]

/-! ## Types of `next_element` -/

theorem closeAngle_angle {t : RTy} {name : Str}
    (ih : ∀ d rest, closeAngle d (t.tokens ++ rest) = (closeAngle d rest).map fun p => (t.tokens ++ p.1, p.2)) (d : Nat)
    (rest : List Token) :
    closeAngle d ((kw name :: .op c!"<" :: t.tokens ++ [.op c!">"]) ++ rest) =
      (closeAngle d rest).map fun p => (kw name :: .op c!"<" :: t.tokens ++ [.op c!">"] ++ p.1, p.2) := by
  simp only [List.cons_append, List.append_assoc, List.nil_append, kw]
  have h1 : ∀ ts, closeAngle d (.ident ⟨false, name⟩ :: .op c!"<" :: ts) =
      (closeAngle (d + 1) ts).map fun p => (.ident ⟨false, name⟩ :: .op c!"<" :: p.1, p.2) := by
    intro ts
    simp [closeAngle, Function.comp_def]
  have h2 : closeAngle (d + 1) (.op c!">" :: rest) = (closeAngle d rest).map fun p => (.op c!">" :: p.1, p.2) := by
    simp [closeAngle]
  rw [h1, ih, h2]
  simp [Function.comp_def]

theorem closeAngle_type (t : RTy) : ∀ (d : Nat) (rest : List Token),
    closeAngle d (t.tokens ++ rest) = (closeAngle d rest).map fun p => (t.tokens ++ p.1, p.2) := by
  induction t with
  | vec t ih => exact closeAngle_angle ih
  | option t ih => exact closeAngle_angle ih
  | box t ih => exact closeAngle_angle ih
  | variableArray => intro d rest; simp [RTy.tokens, kw, closeAngle, Function.comp_def]
  | _ => intro d rest; simp [RTy.tokens, kw, closeAngle]

theorem noSemi_type (t : RTy) : .op c!";" ∉ t.tokens := by
  induction t <;> simp_all [RTy.tokens, kw]

/-- The types rpcgen writes can stand in `next_element::<..>`. -/
theorem isType_tokens (t : RTy) : IsType t.tokens :=
  ⟨noSemi_type t, by rw [closeAngle_type]; simp [closeAngle]⟩

end Xdr.Derive
