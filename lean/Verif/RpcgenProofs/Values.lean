import Verif.RpcgenProofs.Wire
import Verif.Spec.Classes
import Mathlib.Data.List.Forall2
/-!
# Rust values for the XDR values of each kind
-/

namespace Xdr

open Rfc (XVal)

theorem rep_int {env : Env} {k : Int} (h1 : -2147483648 ≤ k) (h2 : k ≤ 2147483647) :
    Rep env .i32 (.i32 (Int32.ofInt k)) (.int k) where
  hasTy := by simp [HasTy, present]
  fits := by simp [Fits]
  xdr := ⟨_, by rw [toXdr], by
    rw [Int32.toInt_ofInt_of_le (by simpa using h1) (by simp; omega)]⟩

theorem rep_i8 {env : Env} {k : Int} (h1 : -128 ≤ k) (h2 : k ≤ 127) :
    Rep env .i8 (.i8 (Int8.ofInt k)) (.int k) where
  hasTy := by simp [HasTy, present]
  fits := by simp [Fits]
  xdr := ⟨_, by rw [toXdr], by
    rw [Int8.toInt_ofInt_of_le (by simpa using h1) (by simp; omega)]⟩

theorem rep_i16 {env : Env} {k : Int} (h1 : -32768 ≤ k) (h2 : k ≤ 32767) :
    Rep env .i16 (.i16 (Int16.ofInt k)) (.int k) where
  hasTy := by simp [HasTy, present]
  fits := by simp [Fits]
  xdr := ⟨_, by rw [toXdr], by
    rw [Int16.toInt_ofInt_of_le (by simpa using h1) (by simp; omega)]⟩

theorem rep_hyper {env : Env} {k : Int} (h1 : -9223372036854775808 ≤ k) (h2 : k ≤ 9223372036854775807) :
    Rep env .i64 (.i64 (Int64.ofInt k)) (.hyper k) where
  hasTy := by simp [HasTy, present]
  fits := by simp [Fits]
  xdr := ⟨_, by rw [toXdr], by
    rw [Int64.toInt_ofInt_of_le (by simpa using h1) (by simp; omega)]⟩

theorem rep_uint {env : Env} {k : Nat} (h : k < 2 ^ 32) : Rep env .u32 (.u32 (UInt32.ofNat k)) (.uint k) where
  hasTy := by simp [HasTy, present]
  fits := by simp [Fits]
  xdr := ⟨_, by rw [toXdr], by rw [UInt32.toNat_ofNat', Nat.mod_eq_of_lt h]⟩

theorem rep_u8 {env : Env} {k : Nat} (h : k < 2 ^ 8) : Rep env .u8 (.u8 (UInt8.ofNat k)) (.uint k) where
  hasTy := by simp [HasTy, present]
  fits := by simp [Fits]
  xdr := ⟨_, by rw [toXdr], by rw [UInt8.toNat_ofNat', Nat.mod_eq_of_lt h]⟩

theorem rep_u16 {env : Env} {k : Nat} (h : k < 2 ^ 16) : Rep env .u16 (.u16 (UInt16.ofNat k)) (.uint k) where
  hasTy := by simp [HasTy, present]
  fits := by simp [Fits]
  xdr := ⟨_, by rw [toXdr], by rw [UInt16.toNat_ofNat', Nat.mod_eq_of_lt h]⟩

theorem rep_uhyper {env : Env} {k : Nat} (h : k < 2 ^ 64) :
    Rep env .u64 (.u64 (UInt64.ofNat k)) (.uhyper k) where
  hasTy := by simp [HasTy, present]
  fits := by simp [Fits]
  xdr := ⟨_, by rw [toXdr], by rw [UInt64.toNat_ofNat', Nat.mod_eq_of_lt h]⟩

theorem rep_float {env : Env} {k : Nat} (h : k < 2 ^ 32) : Rep env .f32 (.f32 (UInt32.ofNat k)) (.float k) where
  hasTy := by simp [HasTy, present]
  fits := by simp [Fits]
  xdr := ⟨_, by rw [toXdr], by rw [UInt32.toNat_ofNat', Nat.mod_eq_of_lt h]⟩

theorem rep_double {env : Env} {k : Nat} (h : k < 2 ^ 64) :
    Rep env .f64 (.f64 (UInt64.ofNat k)) (.double k) where
  hasTy := by simp [HasTy, present]
  fits := by simp [Fits]
  xdr := ⟨_, by rw [toXdr], by rw [UInt64.toNat_ofNat', Nat.mod_eq_of_lt h]⟩

theorem rep_bool (env : Env) (b : Bool) : Rep env .bool (.bool b) (.bool b) where
  hasTy := by simp [HasTy, present]
  fits := by simp [Fits]
  xdr := ⟨_, by rw [toXdr], rfl⟩

theorem rep_string {env : Env} {s : List Char} (h : (utf8Bytes s).length < 2 ^ 32) :
    Rep env .string (.str s) (.string (utf8Bytes s)) where
  hasTy := by simp [HasTy, present]
  fits := by simpa [Fits] using h
  xdr := ⟨_, by rw [toXdr], rfl⟩

theorem rep_opaqueFixed (env : Env) (bs : Bytes) :
    Rep env (.opaqueFixed bs.length) (.bytes bs) (.opaqueFixed bs) where
  hasTy := by simp [HasTy, present]
  fits := by simp [Fits]
  xdr := ⟨.opaqueFixed bs, by simp [toXdr], rfl⟩

theorem rep_opaqueVar {env : Env} {bs : Bytes} (h : bs.length < 2 ^ 32) :
    Rep env .opaqueVar (.bytes bs) (.opaqueVar bs) where
  hasTy := by simp [HasTy, present]
  fits := by simpa [Fits] using h
  xdr := ⟨_, by rw [toXdr], rfl⟩

theorem rep_optNone (env : Env) (t : Ty) : Rep env (.option t) .none .optNone where
  hasTy := by simp [HasTy, present]
  fits := by simp [Fits]
  xdr := ⟨_, by rw [toXdr], rfl⟩

theorem rep_optSome {env : Env} {t : Ty} {v : Val} {x : XVal} (h : Rep env t v x) :
    Rep env (.option t) (.some v) (.optSome x) where
  hasTy := by
    have := h.hasTy
    simp only [HasTy] at this
    simpa [HasTy, present] using this
  fits := by simpa [Fits] using h.fits
  xdr := by
    obtain ⟨y, h1, h2⟩ := h.xdr
    exact ⟨.optSome y, by simp [toXdr, h1], by simp [Rfc.encode, h2]⟩

/-- Elements of arrays. -/
theorem rep_all {env : Env} {t : Ty} {vs : List Val} {xs : List XVal} (h : List.Forall₂ (Rep env t) vs xs) :
    (presentAll env t vs).isSome ∧ FitsAll env t vs ∧
      ∃ ys, toXdrAll env t vs = some ys ∧ ys.length = xs.length ∧ Rfc.encodeAll ys = Rfc.encodeAll xs := by
  induction h with
  | nil => exact ⟨rfl, trivial, [], rfl, rfl, rfl⟩
  | cons h1 _ ih =>
    obtain ⟨h2, h3, ys, h4, h5, h6⟩ := ih
    obtain ⟨y, h7, h8⟩ := h1.xdr
    obtain ⟨ss, hss⟩ := Option.isSome_iff_exists.1 h2
    obtain ⟨s, hs⟩ := Option.isSome_iff_exists.1 h1.hasTy
    refine ⟨by simp [presentAll, hs, hss], ⟨h1.fits, h3⟩, y :: ys, by simp [toXdrAll, h7, h4], by simp [h5],
      by simp only [Rfc.encodeAll, h8, h6]⟩

theorem rep_vec {env : Env} {t : Ty} {vs : List Val} {xs : List XVal} (h : List.Forall₂ (Rep env t) vs xs)
    (hl : xs.length < 2 ^ 32) : Rep env (.vec t) (.seq vs) (.arrayVar xs) := by
  obtain ⟨h1, h2, ys, h3, h4, h5⟩ := rep_all h
  refine ⟨by simpa [HasTy, present] using h1, ?_, .arrayVar ys, by simp [toXdr, h3], by
    simp only [Rfc.encode, h4, h5]⟩
  have := h.length_eq
  simp only [Fits]
  exact ⟨by omega, h2⟩

theorem rep_array {env : Env} {t : Ty} {vs : List Val} {xs : List XVal} (h : List.Forall₂ (Rep env t) vs xs) :
    Rep env (.array xs.length t) (.seq vs) (.arrayFixed xs) := by
  obtain ⟨h1, h2, ys, h3, h4, h5⟩ := rep_all h
  have := h.length_eq
  refine ⟨by simpa [HasTy, present, this] using h1, ?_, .arrayFixed ys, by simp [toXdr, h3, this], by
    simp only [Rfc.encode, h5]⟩
  simpa [Fits] using h2

/-- Members of structures. -/
inductive RepEach (env : Env) : List Ty → List Val → List XVal → Prop
  | nil : RepEach env [] [] []
  | cons {t : Ty} {ts : List Ty} {v : Val} {vs : List Val} {x : XVal} {xs : List XVal} :
      Rep env t v x → RepEach env ts vs xs → RepEach env (t :: ts) (v :: vs) (x :: xs)

theorem rep_each {env : Env} {ts : List Ty} {vs : List Val} {xs : List XVal} (h : RepEach env ts vs xs) :
    (presentEach env ts vs).isSome ∧ FitsEach env ts vs ∧
      ∃ ys, toXdrEach env ts vs = some ys ∧ Rfc.encodeAll ys = Rfc.encodeAll xs := by
  induction h with
  | nil => exact ⟨rfl, trivial, [], rfl, rfl⟩
  | cons h1 _ ih =>
    obtain ⟨h2, h3, ys, h4, h6⟩ := ih
    obtain ⟨y, h7, h8⟩ := h1.xdr
    obtain ⟨ss, hss⟩ := Option.isSome_iff_exists.1 h2
    obtain ⟨s, hs⟩ := Option.isSome_iff_exists.1 h1.hasTy
    exact ⟨by simp [presentEach, hs, hss], ⟨h1.fits, h3⟩, y :: ys, by simp [toXdrEach, h7, h4],
      by simp only [Rfc.encodeAll, h8, h6]⟩

theorem rep_struct {env : Env} {name : String} {fs : List (String × Ty)}
    (henv : env name = some (.struct fs)) {vs : List Val} {xs : List XVal}
    (h : RepEach env (fs.map (·.2)) vs xs) : Rep env (.named name) (.seq vs) (.struct xs) := by
  obtain ⟨h1, h2, ys, h3, h4⟩ := rep_each h
  refine ⟨by simpa [HasTy, present, henv] using h1, by simpa [Fits, henv] using h2, .struct ys, ?_, ?_⟩
  · simp [toXdr, henv, h3]
  · simp only [Rfc.encode, h4]

/-- A value of the only member stands for what that member stands for. -/
theorem rep_wrapper {env : Env} {name f : String} {t : Ty} (henv : env name = some (.struct [(f, t)]))
    {v : Val} {x : XVal} (h : Rep env t v x) : Rep env (.named name) (.seq [v]) x := by
  have h' := rep_struct henv (RepEach.cons h .nil)
  refine ⟨h'.hasTy, h'.fits, ?_⟩
  obtain ⟨y, h1, h2⟩ := h'.xdr
  refine ⟨y, h1, h2.trans ?_⟩
  simp only [Rfc.encode, Rfc.encodeAll]
  cases Rfc.encode x <;> simp [Rfc.cat]

theorem cat_nil (a : Option Bytes) : Rfc.cat a (some []) = a := by
  cases a <;> simp [Rfc.cat]

/-- What is after the number of a case: nothing, or the arm. -/
inductive RepArm (env : Env) : List Ty → List Val → XVal → Prop
  | void : RepArm env [] [] .void
  | one {t : Ty} {v : Val} {x : XVal} : Rep env t v x → RepArm env [t] [v] x

theorem RepArm.each {env : Env} {ts : List Ty} {vs : List Val} {x : XVal} (h : RepArm env ts vs x) :
    ∃ xs, RepEach env ts vs xs ∧ Rfc.encodeAll xs = Rfc.encode x := by
  cases h with
  | void => exact ⟨[], .nil, rfl⟩
  | one h => exact ⟨[_], .cons h .nil, by simp only [Rfc.encodeAll, cat_nil]⟩

/-- A variant with serde's derives. -/
theorem rep_variant {env : Env} {name : String} {vars : List (String × Shape)}
    (henv : env name = some (.enum vars)) {i : Nat} {vn : String} {sh : Shape}
    (hi : vars[i]? = some (vn, sh)) (hsh : sh = .unit ∨ ∃ t, sh = .newtype t) (h32 : i < 2 ^ 32)
    {vs : List Val} {d x : XVal} (h : RepArm env sh.types vs x)
    (hd : Rfc.encode (.enum i) = Rfc.encode d) : Rep env (.named name) (.variant i vs) (.union d x) := by
  rcases hsh with rfl | ⟨t, rfl⟩
  · simp only [Shape.types] at h
    cases h
    have h' := rep_enum henv hi h32
    refine ⟨h'.hasTy, h'.fits, ?_⟩
    obtain ⟨y, h1, h2⟩ := h'.xdr
    refine ⟨y, h1, h2.trans ?_⟩
    rw [hd]
    simp only [Rfc.encode, cat_nil]
  · simp only [Shape.types] at h
    cases h with
    | one h =>
    obtain ⟨y, h1, h2⟩ := h.xdr
    have h3 := h.hasTy
    simp only [HasTy] at h3
    refine ⟨by simpa [HasTy, present, henv, hi] using h3, ?_, .union (.enum i) y, ?_, ?_⟩
    · simp only [Fits, henv, hi]
      exact ⟨h32, h.fits⟩
    · simp [toXdr, henv, hi, h1]
    · simp only [Rfc.encode] at hd ⊢
      rw [hd, h2]

/-- A variant with `XdrIndexer`. -/
theorem rep_indexer {env : Env} {name : String} {vars : List (String × Option (List Ty))}
    {impl : IndexerImpl} (henv : env name = some (.indexer vars impl)) {i : Nat} {vn : String}
    {fs : Option (List Ty)} (hi : vars[i]? = some (vn, fs))
    (hfirst : ∀ j < i, ∀ x, vars[j]? = some x → x.1 ≠ vn) {vs : List Val} {k : Int32}
    (hk : impl.index i vs = .ok k) (hn : impl.name_by_index k = .ok vn)
    {d x : XVal} (h : RepArm env (fs.getD []) vs x)
    (hd : Rfc.encode (.enum k.toInt) = Rfc.encode d) :
    Rep env (.named name) (.variant i vs) (.union d x) := by
  cases fs with
  | none =>
    simp only [Option.getD_none] at h
    cases h
    have h' := rep_indexer_unit henv hi hk hn hfirst
    refine ⟨h'.hasTy, h'.fits, ?_⟩
    obtain ⟨y, h1, h2⟩ := h'.xdr
    refine ⟨y, h1, h2.trans ?_⟩
    rw [hd]
    simp only [Rfc.encode, cat_nil]
  | some ts =>
    simp only [Option.getD_some] at h
    obtain ⟨xs, he, hx⟩ := h.each
    obtain ⟨h1, h2, ys, h3, h4⟩ := rep_each he
    refine ⟨by simpa [HasTy, present, henv, hi] using h1, ?_, .union (.enum k.toInt) (.struct ys), ?_, ?_⟩
    · simp only [Fits, henv, hi]
      refine ⟨⟨k, hk, hn⟩, hfirst, ?_, h2⟩
      cases h <;> simp
    · simp [toXdr, henv, hi, hk, h3]
    · simp only [Rfc.encode] at hd ⊢
      rw [hd, h4, hx]

/-- A variant with `XdrUnion`. -/
theorem rep_union {env : Env} {name : String} {disc : Ty} {vars : List (String × Option (List Ty))}
    {impl : UnionImpl} (henv : env name = some (.union disc vars impl)) {i : Nat} {vn : String}
    {ts : List Ty} (hi : vars[i]? = some (vn, some (disc :: ts)))
    (hfirst : ∀ j < i, ∀ x, vars[j]? = some x → x.1 ≠ vn) {dv : Val} {vs : List Val} {d x : XVal}
    (hd : Rep env disc dv d) (hn : impl.name_by_value dv = .ok vn) (h : RepArm env ts vs x) :
    Rep env (.named name) (.variant i (dv :: vs)) (.union d x) := by
  obtain ⟨xs, he, hx⟩ := h.each
  obtain ⟨h1, h2, ys, h3, h4⟩ := rep_each (RepEach.cons hd he)
  have hne : ∃ y ys', ys = y :: ys' := by
    simp only [toXdrEach] at h3
    split at h3
    · cases h3
      exact ⟨_, _, rfl⟩
    · cases h3
  obtain ⟨y, ys', rfl⟩ := hne
  refine ⟨by simpa [HasTy, present, henv, hi] using h1, ?_, .union y (.struct ys'), ?_, ?_⟩
  · simp only [Fits, henv, hi]
    refine ⟨⟨ts, dv, vs, rfl, rfl, ?_, hn⟩, hfirst, h2⟩
    cases h <;> simp
  · simp [toXdr, henv, hi, h3]
  · simp only [Rfc.encodeAll] at h4
    simp only [Rfc.encode]
    rw [h4, hx]

end Xdr
