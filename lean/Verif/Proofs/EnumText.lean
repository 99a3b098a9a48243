import Verif.Proofs.SynEnum
import Verif.Spec.EnumText
/-!
# Lemmas: `syn` on enums as they are written
-/

namespace Xdr.Derive.Written

open Rpcgen (Str Token RIdent kw)

theorem Attrs.skip {a : List Token} (h : Attrs a) {r : List Token}
    (hr : ∀ b r', r ≠ .op c!"#" :: .group .bracket b :: r') : skipAttrs (a ++ r) = r := by
  induction h with
  | nil =>
    rw [List.nil_append]
    unfold skipAttrs
    split
    · next s b ts =>
      rw [if_neg]
      rintro rfl
      exact hr _ _ rfl
    · rfl
  | cons _ ih =>
    rw [List.cons_append, List.cons_append]
    simp only [skipAttrs, if_true]
    exact ih

theorem Attrs.no_comma {a : List Token} (h : Attrs a) : .op c!"," ∉ a := by
  induction h with
  | nil => simp
  | cons _ ih => simp [ih]

theorem Visibility.skip {v : List Token} (h : Visibility v) (n : RIdent) (b : List Token) :
    skipVis (v ++ [kw c!"enum", .ident n, .group .brace b]) = [kw c!"enum", .ident n, .group .brace b] := by
  cases h <;> rfl

/-- No attribute begins with what can follow the attributes of an enum. -/
theorem Visibility.start {v : List Token} (h : Visibility v) (r b r' : List Token) :
    v ++ kw c!"enum" :: r ≠ .op c!"#" :: .group .bracket b :: r' := by
  cases h <;> simp [kw]

theorem onHead_nil {ps : List (List Token)} (h : ps ≠ []) : onHead [] ps = ps := by
  cases ps with
  | nil => exact absurd rfl h
  | cons p ps => rfl

theorem onHead_append {a b : List Token} {ps : List (List Token)} (h : ps ≠ []) :
    onHead a (onHead b ps) = onHead (a ++ b) ps := by
  cases ps with
  | nil => exact absurd rfl h
  | cons p ps => simp [onHead]

theorem splitTypes_token {d : Nat} {t : Token} (h1 : t ≠ .op c!",") (h2 : t ≠ .op c!"<") (h3 : t ≠ .op c!">")
    (ts : List Token) : splitTypes d (t :: ts) = onHead [t] (splitTypes d ts) := by
  cases t with
  | op x =>
    simp only [splitTypes, onFirst_eq]
    rw [if_neg fun h => h1 (by rw [h.1]), if_neg fun h => h2 (by rw [h]), if_neg fun h => h3 (by rw [h])]
  | _ => simp only [splitTypes, onFirst_eq]

/-- What is balanced stays together. -/
theorem Balanced.split {c : Bool} {a : List Token} (h : Balanced c a) : ∀ (d : Nat) (rest : List Token),
    (c = true → 0 < d) → splitTypes d (a ++ rest) = onHead a (splitTypes d rest) := by
  induction h with
  | nil =>
    intro d rest _
    exact (onHead_nil (splitTypes_ne _ _)).symm
  | token h1 h2 h3 _ ih =>
    intro d rest hd
    rw [List.cons_append, splitTypes_token h1 h2 h3, ih d rest hd, onHead_append (splitTypes_ne _ _)]
    rfl
  | @comma ts _ ih =>
    intro d rest hd
    have := hd rfl
    rw [List.cons_append]
    have hc : splitTypes d (.op c!"," :: (ts ++ rest)) = onHead [.op c!","] (splitTypes d (ts ++ rest)) := by
      simp only [splitTypes, onFirst_eq]
      rw [if_neg (by omega), if_neg (by decide), if_neg (by decide)]
    rw [hc, ih d rest hd, onHead_append (splitTypes_ne _ _)]
    rfl
  | @angles c a ts _ _ iha ih =>
    intro d rest hd
    rw [List.cons_append, splitTypes_open, List.append_assoc, iha _ _ (fun _ => by omega), List.cons_append,
      splitTypes_close, ih d rest hd]
    cases hr : splitTypes d rest with
    | nil => exact absurd hr (splitTypes_ne _ _)
    | cons p ps => simp [onHead]

theorem Field.split {f t : List Token} (h : Field f t) (rest : List Token) :
    splitTypes 0 (f ++ rest) = onHead f (splitTypes 0 rest) := by
  cases h with
  | mk ha ht =>
    rename_i a
    have hb : Balanced false (a ++ t) := by
      induction ha with
      | nil => exact ht.balanced
      | cons _ ih => exact .token (by simp) (by simp) (by simp) (.token (by simp) (by simp) (by simp) ih)
    exact hb.split 0 rest (by simp)

theorem Field.ne {f t : List Token} (h : Field f t) : f ≠ [] := by
  cases h with
  | mk ha ht => simp [ht.something]

theorem Field.skip {f t : List Token} (h : Field f t) : skipAttrs f = t := by
  cases h with
  | mk ha ht => exact ha.skip ht.no_attribute

theorem dropLast_trailing {ps : List (List Token)} : dropLastEmpty (ps ++ [[]]) = ps := by
  simp [dropLastEmpty]

theorem dropLast_cons {p q : List Token} {ps : List (List Token)} :
    dropLastEmpty (p :: q :: ps) = p :: dropLastEmpty (q :: ps) := by
  unfold dropLastEmpty
  rw [List.getLast?_cons_cons]
  split <;> rfl

/-- A list with any comma-splitting reader. -/
theorem Listed.split {s : List Token → List (List Token)} (hs : s [] = [[]])
    (hne : ∀ ts, s ts ≠ []) (hc : ∀ ts, s (.op c!"," :: ts) = [] :: s ts) {ps : List (List Token)} {b : List Token}
    (h : Listed ps b) (hp : ∀ p ∈ ps, p ≠ [] ∧ ∀ rest, s (p ++ rest) = onHead p (s rest)) :
    dropLastEmpty (s b) = ps := by
  induction h with
  | nil => rw [hs]; rfl
  | @one x =>
    obtain ⟨h1, h2⟩ := hp x (by simp)
    have := h2 []
    rw [List.append_nil, hs] at this
    rw [this]
    simp only [onHead, List.append_nil]
    exact dropLastEmpty_eq (by simpa using h1)
  | @trailing x =>
    obtain ⟨h1, h2⟩ := hp x (by simp)
    rw [h2, hc, hs]
    simp only [onHead, List.append_nil]
    exact dropLast_trailing (ps := [x])
  | @cons x y xs ts _ ih =>
    obtain ⟨h1, h2⟩ := hp x (by simp)
    have ih := ih fun p hin => hp p (List.mem_cons_of_mem _ hin)
    rw [h2, hc]
    simp only [onHead, List.append_nil]
    cases hts : s ts with
    | nil => exact absurd hts (hne _)
    | cons q qs =>
      rw [dropLast_cons, ← hts, ih]

theorem splitCommas_onHead {a : List Token} (ha : .op c!"," ∉ a) (b : List Token) :
    splitCommas (a ++ b) = onHead a (splitCommas b) := by
  induction a with
  | nil => exact (onHead_nil (splitCommas_ne _)).symm
  | cons t a ih =>
    rw [List.mem_cons, not_or] at ha
    rw [List.cons_append]
    have ih := ih ha.2
    cases hb : splitCommas b with
    | nil => exact absurd hb (splitCommas_ne _)
    | cons p ps =>
      rw [hb] at ih
      exact splitCommas_cons (Ne.symm ha.1) ih

theorem forall₂_mem {α β : Type} {R : α → β → Prop} {l : List α} {r : List β} (h : List.Forall₂ R l r) :
    ∀ a ∈ l, ∃ b, R a b := by
  induction h with
  | nil => simp
  | cons h _ ih => simpa using ⟨⟨_, h⟩, ih⟩

theorem forall₂_map {α β : Type} {R : α → β → Prop} {f : α → β} (hf : ∀ a b, R a b → f a = b) {l : List α} {r : List β}
    (h : List.Forall₂ R l r) : l.map f = r := by
  induction h with
  | nil => rfl
  | cons h _ ih => rw [List.map_cons, hf _ _ h, ih]

theorem Variant_.parse {ts : List Token} {v : VariantTokens} (h : Variant_ ts v) : synVariant ts = some v := by
  cases h with
  | unit ha =>
    unfold synVariant
    rw [ha.skip (by simp)]
  | number ha he =>
    unfold synVariant
    rw [ha.skip (by simp)]
    simp
  | tuple ha hl hf =>
    unfold synVariant
    rw [ha.skip (by simp)]
    simp only
    rw [hl.split (s := splitTypes 0) rfl (splitTypes_ne 0) splitTypes_comma fun p hp => by
      obtain ⟨t, ht⟩ := forall₂_mem hf p hp
      exact ⟨ht.ne, ht.split⟩, forall₂_map (fun a b h => h.skip) hf]
  | named ha =>
    unfold synVariant
    rw [ha.skip (by simp)]

theorem Variant_.no_comma {ts : List Token} {v : VariantTokens} (h : Variant_ ts v) : .op c!"," ∉ ts := by
  cases h with
  | unit ha => simp [ha.no_comma]
  | number ha he => simp [ha.no_comma, he]
  | tuple ha => simp [ha.no_comma]
  | named ha => simp [ha.no_comma]

theorem Variant_.ne {ts : List Token} {v : VariantTokens} (h : Variant_ ts v) : ts ≠ [] := by
  cases h <;> simp

theorem Variant_.all {ps : List (List Token)} {vs : List VariantTokens} (h : List.Forall₂ Variant_ ps vs) :
    ps.mapM synVariant = some vs := by
  induction h with
  | nil => rfl
  | cons h _ ih =>
    rw [List.mapM_cons, h.parse, ih]
    rfl

theorem Enum_.parse {ts : List Token} {e : EnumTokens} (h : Enum_ ts e) : syn_parse ts = some (.enum e) := by
  cases h with
  | mk ha hv hl hvs =>
    unfold syn_parse
    rw [ha.skip (hv.start _), hv.skip]
    simp only [kw]
    rw [if_pos (by rfl), hl.split (s := splitCommas) rfl splitCommas_ne splitCommas_comma fun p hp => by
      obtain ⟨v, hv⟩ := forall₂_mem hvs p hp
      exact ⟨hv.ne, splitCommas_onHead hv.no_comma⟩, Variant_.all hvs]
    rfl

end Xdr.Derive.Written
