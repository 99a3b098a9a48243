import Verif.RpcgenProofs.LexFile
/-!
# How long a printed token stream is
-/

namespace Xdr.Rpcgen

mutual
/-- An upper bound for the length of a token's text. -/
def Token.weight : Token → Nat
  | .ident i => i.text.length
  | .op s => s.length
  | .lifetime s => s.length + 1
  | .lit s => s.length
  | .group _ ts => 4 + weights ts

/-- Of a stream of tokens, each with a blank. -/
def weights : List Token → Nat
  | [] => 0
  | t :: ts => t.weight + 1 + weights ts
end

mutual
theorem Token.text_le : (t : Token) → t.text.length ≤ t.weight
  | .ident _ => by simp [Token.text, Token.weight]
  | .op _ => by simp [Token.text, Token.weight]
  | .lifetime _ => by simp [Token.text, Token.weight]
  | .lit _ => by simp [Token.text, Token.weight]
  | .group d ts => by
    have h := tokensText_le ts
    simp only [Token.text, Token.weight, List.length_append]
    cases d <;> simp [Delim.opening, Delim.closing] <;> (try split) <;> (try simp) <;> omega

theorem tokensText_le : (ts : List Token) → (tokensText ts).length ≤ weights ts
  | [] => by simp [tokensText, weights]
  | [t] => by
    have h := Token.text_le t
    simp only [tokensText, weights]
    omega
  | t :: u :: ts => by
    have h := Token.text_le t
    have h1 := tokensText_le (u :: ts)
    rw [tokensText, weights]
    simp only [List.length_append, List.length_cons]
    omega
end

/-- There is a blank between any two tokens. -/
theorem length_le_tokensText : ∀ ts : List Token, ts.length ≤ (tokensText ts).length + 1
  | [] => by simp
  | [t] => by simp
  | t :: u :: ts => by
    have h1 := length_le_tokensText (u :: ts)
    rw [tokensText]
    simp only [List.length_append, List.length_cons] at h1 ⊢
    omega

theorem weights_append (a b : List Token) : weights (a ++ b) = weights a + weights b := by
  induction a with
  | nil => simp [weights]
  | cons t ts ih => rw [List.cons_append, weights, weights, ih]; omega

theorem weights_nil : weights [] = 0 := by rw [weights]

theorem weights_cons (t : Token) (ts : List Token) : weights (t :: ts) = t.weight + 1 + weights ts := by
  rw [weights]

theorem weight_op (s : Str) : (Token.op s).weight = s.length := by rw [Token.weight]
theorem weight_lit (s : Str) : (Token.lit s).weight = s.length := by rw [Token.weight]
theorem weight_lifetime (s : Str) : (Token.lifetime s).weight = s.length + 1 := by rw [Token.weight]
theorem weight_kw (s : Str) : (kw s).weight = s.length := by
  simp [kw, Token.weight, RIdent.text]
theorem weight_ident (i : RIdent) : (Token.ident i).weight = i.text.length := by rw [Token.weight]
theorem weight_group (d : Delim) (ts : List Token) : (Token.group d ts).weight = 4 + weights ts := by
  rw [Token.weight]

open Lean.Parser.Tactic in
/-- Adds up the weights of a template. -/
macro "weigh" "[" ls:simpLemma,* "]" loc:(location)? : tactic => `(tactic|
  simp only [weights_append, weights_cons, weights_nil, weight_op, weight_lit, weight_lifetime, weight_kw,
    weight_ident, weight_group, List.length_cons, List.length_nil, List.length_append, $ls,*] $[$loc]?)

theorem weights_commaSep {l : List (List Token)} {m : Nat} (h : ∀ ts ∈ l, weights ts ≤ m) :
    weights (commaSep l) ≤ l.length * (m + 2) := by
  match l, h with
  | [], _ => simp [commaSep, weights_nil]
  | [x], h =>
    have := h x (by simp)
    simp only [commaSep, List.length_cons, List.length_nil]
    omega
  | x :: y :: xs, h =>
    have h1 := h x (by simp)
    have h2 := weights_commaSep (l := y :: xs) fun ts hts => h ts (by simp at hts ⊢; tauto)
    rw [commaSep, weights_append, weights_cons, weight_op]
    simp only [List.length_cons, List.length_nil, Nat.add_mul] at h2 ⊢
    omega

theorem weights_commaSep_map {α : Type} {f : α → List Token} {l : List α} {m v : Nat}
    (h : ∀ a ∈ l, weights (f a) ≤ m) (hv : l.length ≤ v) : weights (commaSep (l.map f)) ≤ v * (m + 2) := by
  have := weights_commaSep (l := l.map f) (m := m) (by simpa using h)
  rw [List.length_map] at this
  exact Nat.le_trans this (Nat.mul_le_mul_right _ hv)

/-! ## Numbers -/

theorem digitsFuel_length {f : Nat} : ∀ {n k : Nat}, n < 10 ^ (k + 1) → (digitsFuel f n).length ≤ k + 1 := by
  induction f with
  | zero => simp [digitsFuel]
  | succ f ih =>
    intro n k h
    rw [digitsFuel]
    split
    · simp
    · rename_i hn
      cases k with
      | zero => simp at h; omega
      | succ k =>
        have := ih (n := n / 10) (k := k) (by
          rw [Nat.pow_succ] at h
          omega)
        simp only [List.length_append, List.length_cons, List.length_nil]
        omega

/-- Numbers of at most twenty digits. -/
def Small (v : Int) : Prop := v.natAbs < 10 ^ 20

theorem Small.of_range {v : Int} (h1 : -10000000000 ≤ v) (h2 : v ≤ 18446744073709551615) : Small v := by
  unfold Small
  omega

theorem intToString_length {v : Int} (h : Small v) : (intToString v).length ≤ 21 := by
  have := digitsFuel_length (f := v.natAbs + 1) (n := v.natAbs) (k := 19) h
  unfold intToString
  split
  · simp only [List.length_cons]; omega
  · omega

theorem suffix_length (t : IntTy) : t.suffix.length ≤ 5 := by cases t <;> decide

theorem weights_int {t : IntTy} {v : Int} (h : Small v) : weights (intTokens t v) ≤ 29 := by
  have h1 := intToString_length (v := (v.natAbs : Int)) (by simpa [Small] using h)
  have h2 := suffix_length t
  unfold intTokens
  split <;> weigh [] <;> omega

/-! ## Parts of the file

`Fits`: identifiers have at most `n` characters and numbers at most twenty digits, types weigh at most `t`. -/

/-- See above. -/
def Tok.Fits (n : Nat) : Tok → Prop
  | .lit _ v => Small v
  | .ident i => i.text.length ≤ n

theorem Tok.Fits.weights {n : Nat} {t : Tok} (h : t.Fits n) : weights t.tokens ≤ n + 29 := by
  cases t with
  | lit t v => exact Nat.le_trans (weights_int h) (by omega)
  | ident i =>
    have h : i.text.length ≤ n := h
    simp only [Tok.tokens]
    weigh []
    omega

theorem weights_serdeWith (s : Str) : weights (serdeWith s) = s.length + 28 := by
  unfold serdeWith
  weigh []
  omega

theorem weights_attr (a : Attr) : weights a.tokens ≤ 80 := by
  cases a <;> simp only [Attr.tokens, weights_serdeWith, weights_nil] <;> simp

theorem weights_derive {names : List Str} (h1 : names.length ≤ 5) (h2 : ∀ s ∈ names, s.length ≤ 11) :
    weights (deriveTokens names) ≤ 120 := by
  unfold deriveTokens
  have := weights_commaSep_map (f := fun n => [kw n]) (l := names) (m := 12) (v := 5) (fun s hs => by
    have := h2 s hs
    weigh []
    omega) h1
  weigh []
  omega

/-- A constant. -/
def ConstItem.Fits (n : Nat) (c : ConstItem) : Prop := c.name.text.length ≤ n ∧ c.value.Fits n

theorem ConstItem.Fits.weights {n : Nat} {c : ConstItem} (h : c.Fits n) : weights c.tokens ≤ 2 * n + 60 := by
  have h1 := h.1
  have h2 := h.2.weights
  have h3 := suffix_length c.ty
  unfold ConstItem.tokens
  weigh []
  omega

/-- An arm: a name and a number. -/
def ArmFits (n : Nat) (i : RIdent) (v : Int) : Prop := i.text.length ≤ n ∧ Small v

/-- An enum. -/
structure EnumItem.Fits (n v : Nat) (e : EnumItem) : Prop where
  name : e.name.text.length ≤ n
  variants : e.variants.length ≤ v ∧ ∀ a ∈ e.variants, ArmFits n a.1 a.2
  default : e.default.text.length ≤ n
  asRef : ∀ arms, e.asRef = some arms → arms.length ≤ v ∧ ∀ a ∈ arms, ArmFits n a.1 a.2
  tryFrom : ∀ arms, e.tryFrom = some arms → arms.length ≤ v ∧ ∀ a ∈ arms, ArmFits n a.2 a.1
  byIndex : ∀ ix, e.indexer = some ix → ix.byIndex.length ≤ v ∧ ∀ a ∈ ix.byIndex, ArmFits n a.2 a.1
  otherwise : ∀ ix, e.indexer = some ix → ix.otherwise.text.length ≤ n
  index : ∀ ix, e.indexer = some ix → ix.index.length ≤ v ∧ ∀ a ∈ ix.index, ArmFits n a.1 a.2

theorem weights_implDefault {name : RIdent} {value : List Token} {n m : Nat} (h : name.text.length ≤ n)
    (hv : weights value ≤ m) : weights (implDefault name value) ≤ 2 * n + m + 60 := by
  unfold implDefault implTokens fnTokens
  weigh []
  omega

theorem weights_variantArm {name : RIdent} {n : Nat} {a : RIdent × Int} {before : List Token} (h : name.text.length ≤ n)
    (ha : ArmFits n a.1 a.2) (hb : weights before ≤ 2) : weights (variantArm name before a) ≤ 2 * n + 40 := by
  have h1 := ha.1
  have h2 := weights_int (t := .i32) ha.2
  unfold variantArm
  weigh []
  omega

theorem weights_asRef {name : RIdent} {n v : Nat} {arms : List (RIdent × Int)} (h : name.text.length ≤ n)
    (ha : arms.length ≤ v ∧ ∀ a ∈ arms, ArmFits n a.1 a.2) :
    weights (asRefTokens name arms) ≤ n + 120 + v * (2 * n + 42) := by
  have := weights_commaSep_map (m := 2 * n + 40) (f := variantArm name [.op c!"&"])
    (fun a hm => weights_variantArm (before := [.op c!"&"]) h (ha.2 a hm) (by weigh []; omega)) ha.1
  rw [show 2 * n + 42 = 2 * n + 40 + 2 from rfl]
  unfold asRefTokens implTokens fnTokens matchTokens refSelf
  weigh []
  omega

theorem weights_localError : weights localError = 28 := by
  unfold localError; weigh []

theorem weights_globalError : weights globalError = 31 := by
  unfold globalError; weigh []

theorem weights_tryFrom {name : RIdent} {n v : Nat} {arms : List (Int × RIdent)} (h : name.text.length ≤ n)
    (ha : arms.length ≤ v ∧ ∀ a ∈ arms, ArmFits n a.2 a.1) :
    weights (tryFromTokens name arms) ≤ n + 300 + v * (2 * n + 52) := by
  have := weights_commaSep_map (m := 2 * n + 50) (v := v) (l := arms) (f := fun a : Int × RIdent =>
    intTokens .i32 a.1 ++ [.op c!"=>", kw c!"Ok", .group .paren [.ident name, .op c!"::", .ident a.2]])
    (fun a hm => by
      have h1 := (ha.2 a hm).1
      have h2 := weights_int (t := .i32) (ha.2 a hm).2
      weigh []
      omega) ha.1
  have h2 := weights_localError
  rw [show 2 * n + 52 = 2 * n + 50 + 2 from rfl]
  unfold tryFromTokens implTokens fnTokens matchTokens errorType errArm
  weigh []
  omega

theorem weights_okStringify {t : List Token} : weights (okStringify t) = weights t + 25 := by
  unfold okStringify
  weigh []
  omega

theorem weights_enumIndexer {name : RIdent} {n v : Nat} {ix : EnumIndexer} (h : name.text.length ≤ n)
    (h1 : ix.byIndex.length ≤ v ∧ ∀ a ∈ ix.byIndex, ArmFits n a.2 a.1) (h2 : ix.otherwise.text.length ≤ n)
    (h3 : ix.index.length ≤ v ∧ ∀ a ∈ ix.index, ArmFits n a.1 a.2) :
    weights (ix.tokens name) ≤ 2 * n + 400 + v * (3 * n + 120) := by
  have b1 := weights_commaSep_map (m := n + 70) (v := v) (l := ix.byIndex) (f := fun a : Int × RIdent =>
    intTokens .i32 a.1 ++ .op c!"=>" :: okStringify [.ident a.2])
    (fun a hm => by
      have h1' := (h1.2 a hm).1
      have h2 := weights_int (t := .i32) (h1.2 a hm).2
      weigh [weights_okStringify]
      omega) h1.1
  have b2 := weights_commaSep_map (m := 2 * n + 40) (f := variantArm name [])
    (fun a hm => weights_variantArm (before := []) h (h3.2 a hm) (by weigh []; omega)) h3.1
  have b3 := weights_globalError
  have e : v * (3 * n + 120) = v * (n + 70 + 2) + v * (2 * n + 40 + 2) + v * 6 := by
    rw [← Nat.mul_add, ← Nat.mul_add]
    congr 1
    omega
  unfold EnumIndexer.tokens implTokens fnTokens matchTokens errorType indexParam nameResult refSelf
  weigh [weights_okStringify]
  omega

/-- A bound for enums. -/
theorem EnumItem.Fits.weights {n v : Nat} {e : EnumItem} (h : e.Fits n v) :
    weights e.tokens ≤ (v + 1) * (12 * n + 1500) := by
  have d := weights_derive (names := if e.deriveIndexer then [c!"Clone", c!"Debug", c!"PartialEq", c!"XdrIndexer"]
    else [c!"Clone", c!"Debug", c!"Deserialize", c!"PartialEq", c!"Serialize"]) (by split <;> decide)
    (by split <;> decide)
  have b1 := weights_commaSep_map (m := n + 34) (v := v) (l := e.variants) (f := fun a : RIdent × Int =>
    .ident a.1 :: .op c!"=" :: intTokens .i32 a.2)
    (fun a hm => by
      have h1 := (h.variants.2 a hm).1
      have h2 := weights_int (t := .i32) (h.variants.2 a hm).2
      weigh []
      omega) h.variants.1
  have b2 := weights_implDefault (value := [.ident e.default]) (m := n + 1) h.name
    (by have := h.default; weigh []; omega)
  have b3 : ∀ arms, e.asRef = some arms → _ := fun arms ha => weights_asRef h.name (h.asRef arms ha)
  have b4 : ∀ arms, e.tryFrom = some arms → _ := fun arms ha => weights_tryFrom h.name (h.tryFrom arms ha)
  have b5 : ∀ ix, e.indexer = some ix → _ := fun ix ha =>
    weights_enumIndexer h.name (h.byIndex ix ha) (h.otherwise ix ha) (h.index ix ha)
  have hn := h.name
  unfold EnumItem.tokens
  weigh []
  simp only [Nat.mul_add, Nat.add_mul, Nat.mul_comm v _, Nat.mul_assoc] at *
  cases h1 : e.asRef <;> cases h2 : e.tryFrom <;> cases h3 : e.indexer <;>
    simp only [weights_nil, h1, h2, h3, Option.some.injEq, forall_eq', reduceCtorEq, false_imp_iff, implies_true]
      at b3 b4 b5 ⊢ <;> omega

/-- Types. -/
def TyFits (t : Nat) (ty : RTy) : Prop := weights ty.tokens ≤ t

/-- A structure. -/
structure StructItem.Fits (n t v : Nat) (s : StructItem) : Prop where
  name : s.name.text.length ≤ n
  fields : s.fields.length ≤ v ∧ ∀ f ∈ s.fields, f.2.1.text.length ≤ n ∧ TyFits t f.2.2

theorem StructItem.Fits.weights {n t v : Nat} {s : StructItem} (h : s.Fits n t v) :
    weights s.tokens ≤ (v + 1) * (n + t + 300) := by
  have d := weights_derive (names := [c!"Clone", c!"Debug", c!"Default", c!"Deserialize", c!"Serialize"])
    (by decide) (by decide)
  have b1 := weights_commaSep_map (m := n + t + 100) (v := v) (l := s.fields) (f := fun f : Attr × RIdent × RTy =>
    f.1.tokens ++ kw c!"pub" :: .ident f.2.1 :: .op c!":" :: f.2.2.tokens)
    (fun a hm => by
      have h1 := (h.fields.2 a hm).1
      have h2 : Xdr.Rpcgen.weights a.2.2.tokens ≤ t := (h.fields.2 a hm).2
      have h3 := weights_attr a.1
      weigh []
      omega) h.fields.1
  have hn := h.name
  unfold StructItem.tokens
  weigh []
  simp only [Nat.mul_add, Nat.add_mul, Nat.mul_comm v _] at *
  omega

/-- A variant with fields. -/
structure Variant.Fits (n t : Nat) (v : Variant) : Prop where
  name : v.name.Fits n
  fields : v.fields.length ≤ 2 ∧ ∀ f ∈ v.fields, TyFits t f

theorem Variant.Fits.weights {n t : Nat} {v : Variant} (h : v.Fits n t) : weights v.tokens ≤ n + 2 * t + 150 := by
  have h1 := h.name.weights
  have h2 := weights_attr v.attr
  have h3 := weights_commaSep_map (f := RTy.tokens) (l := v.fields) (m := t) (v := 2) h.fields.2 h.fields.1
  unfold Variant.tokens
  split <;> weigh [] <;> omega

theorem weights_default {n : Nat} {d : Tok × Nat} (h1 : d.1.Fits n) (h2 : d.2 ≤ 2) :
    weights (defaultTokens d) ≤ n + 120 := by
  have h3 := h1.weights
  have h4 := weights_commaSep (l := List.replicate d.2 [kw c!"Default", .op c!"::", kw c!"default", .group .paren []])
    (m := 30) (by
      intro ts hts
      rw [List.eq_of_mem_replicate hts]
      weigh []
      omega)
  rw [List.length_replicate] at h4
  unfold defaultTokens
  split <;> weigh [] <;> omega

/-- Patterns. -/
def Pat.Fits (n : Nat) : Pat → Prop
  | .path c v => c.text.length ≤ n ∧ v.text.length ≤ n
  | .lit v => Small v
  | .bool _ => True

theorem Pat.Fits.weights {n : Nat} {p : Pat} (h : p.Fits n) : weights p.tokens ≤ 2 * n + 29 := by
  cases p with
  | path c v =>
    have h1 : c.text.length ≤ n := h.1
    have h2 : v.text.length ≤ n := h.2
    unfold Pat.tokens
    weigh []
    omega
  | lit v => exact Nat.le_trans (weights_int h) (by omega)
  | bool b => cases b <;> simp only [Pat.tokens] <;> weigh [] <;> simp

/-- A union. -/
structure UnionItem.Fits (n t v w : Nat) (u : UnionItem) : Prop where
  name : u.name.text.length ≤ n
  variants : u.variants.length ≤ v ∧ ∀ a ∈ u.variants, a.Fits n t
  default : u.default.1.Fits n ∧ u.default.2 ≤ 2
  byIndex : ∀ ix, u.indexer = some ix → ix.byIndex.length ≤ w ∧ ∀ a ∈ ix.byIndex, Small a.1 ∧ a.2.Fits n
  index : ∀ ix, u.indexer = some ix → ix.index.length ≤ w ∧ ∀ a ∈ ix.index, a.1.Fits n ∧ Small a.2.2
  cond : ∀ un, u.union = some un → ∀ ty, un.cond = some ty → TyFits t ty
  byValue : ∀ un, u.union = some un → un.byValue.length ≤ w ∧ ∀ a ∈ un.byValue, a.1.Fits n ∧ a.2.Fits n

theorem weights_unionIndexer {name : RIdent} {n w : Nat} {ix : UnionIndexer} (h : name.text.length ≤ n)
    (h1 : ix.byIndex.length ≤ w ∧ ∀ a ∈ ix.byIndex, Small a.1 ∧ a.2.Fits n)
    (h3 : ix.index.length ≤ w ∧ ∀ a ∈ ix.index, a.1.Fits n ∧ Small a.2.2) :
    weights (ix.tokens name) ≤ 2 * n + 500 + w * (3 * n + 220) := by
  have b1 := weights_commaSep_map (m := n + 90) (v := w) (l := ix.byIndex) (f := fun a : Int × Tok =>
    intTokens .i32 a.1 ++ .op c!"=>" :: okStringify a.2.tokens)
    (fun a hm => by
      have h1' := (h1.2 a hm).2.weights
      have h2 := weights_int (t := .i32) (h1.2 a hm).1
      weigh [weights_okStringify]
      omega) h1.1
  have b2 := weights_commaSep_map (m := 2 * n + 90) (v := w) (l := ix.index) (f := fun a : Tok × Bool × Int =>
    .ident name :: .op c!"::" :: a.1.tokens ++ (if a.2.1 then [.group .paren [kw c!"_"]] else []) ++
                .op c!"=>" :: intTokens .i32 a.2.2)
    (fun a hm => by
      have h1' := (h3.2 a hm).1.weights
      have h2 := weights_int (t := .i32) (h3.2 a hm).2
      split <;> weigh [] <;> omega) h3.1
  have b3 := weights_globalError
  have e : w * (3 * n + 220) = w * (n + 90 + 2) + w * (2 * n + 90 + 2) + w * 36 := by
    rw [← Nat.mul_add, ← Nat.mul_add]
    congr 1
    omega
  have o1 : weights (if ix.otherwise then defaultArm else errArm globalError) ≤ 80 := by
    unfold defaultArm errArm
    split <;> weigh [weights_okStringify] <;> omega
  have o2 : weights (if ix.indexOtherwise then
                [kw c!"_", .op c!"=>", kw c!"unimplemented", .op c!"!", .group .paren [], .op c!","]
              else []) ≤ 40 := by
    split <;> weigh [] <;> omega
  unfold UnionIndexer.tokens implTokens fnTokens matchTokens errorType indexParam nameResult refSelf
  weigh [weights_okStringify]
  omega

theorem weights_unionUnion {name : RIdent} {n t w : Nat} {un : UnionUnion} (h : name.text.length ≤ n)
    (h1 : ∀ ty, un.cond = some ty → TyFits t ty)
    (h3 : un.byValue.length ≤ w ∧ ∀ a ∈ un.byValue, a.1.Fits n ∧ a.2.Fits n) :
    weights (un.tokens name) ≤ n + 2 * t + 500 + w * (3 * n + 100) := by
  have b1 := weights_commaSep_map (m := 3 * n + 90) (v := w) (l := un.byValue) (f := fun a : Pat × Tok =>
    a.1.tokens ++ .op c!"=>" :: okStringify a.2.tokens)
    (fun a hm => by
      have h1' := (h3.2 a hm).1.weights
      have h2 := (h3.2 a hm).2.weights
      weigh [weights_okStringify]
      omega) h3.1
  have b3 := weights_globalError
  have c : weights (condTokens un.cond) ≤ t := by
    cases hc : un.cond with
    | none => simp [condTokens, weights_nil]
    | some ty => exact h1 ty hc
  have e : w * (3 * n + 100) = w * (3 * n + 90 + 2) + w * 8 := by
    rw [← Nat.mul_add]
  unfold UnionUnion.tokens implTokens fnTokens matchTokens errorType nameResult
  weigh []
  cases un.otherwise <;> simp only [defaultArm, errArm] <;> weigh [weights_okStringify] <;> omega

theorem UnionItem.Fits.weights {n t v w : Nat} {u : UnionItem} (h : u.Fits n t v w) (hw : w ≤ v) :
    weights u.tokens ≤ (v + 1) * (12 * n + 2 * t + 2000) := by
  have d1 := weights_derive (names := [c!"Clone", c!"Debug", c!"XdrIndexer"]) (by decide) (by decide)
  have d2 := weights_derive (names := [c!"Clone", c!"Debug", c!"XdrUnion"]) (by decide) (by decide)
  have d3 := weights_derive (names := [c!"Clone", c!"Debug", c!"Deserialize", c!"Serialize"]) (by decide) (by decide)
  have b1 := weights_commaSep_map (f := Variant.tokens) (fun a hm => (h.variants.2 a hm).weights) h.variants.1
  have b2 := weights_implDefault h.name (weights_default h.default.1 h.default.2)
  have b3 : ∀ ix, u.indexer = some ix → _ := fun ix ha => weights_unionIndexer h.name (h.byIndex ix ha) (h.index ix ha)
  have b4 : ∀ un, u.union = some un → _ := fun un ha => weights_unionUnion h.name (h.cond un ha) (h.byValue un ha)
  have hn := h.name
  have b3' := Nat.mul_le_mul_right (3 * n + 220) hw
  have b4' := Nat.mul_le_mul_right (3 * n + 100) hw
  unfold UnionItem.tokens
  weigh []
  simp only [Nat.mul_add, Nat.add_mul, Nat.mul_comm v _, Nat.mul_comm w _, Nat.mul_assoc] at *
  cases u.derive <;> cases h1 : u.indexer <;> cases h2 : u.union <;>
    simp only [weights_nil, h1, h2, Option.some.injEq, forall_eq', reduceCtorEq, false_imp_iff, implies_true]
      at b3 b4 ⊢ <;> omega

end Xdr.Rpcgen
