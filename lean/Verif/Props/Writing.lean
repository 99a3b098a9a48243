import Verif.Proofs.De
import Verif.Spec.Rfc4506
/-! # C33, C17: what the serializer appends -/

namespace Xdr

/-- C33: whatever was written before stays, what is appended does not depend on it. -/
theorem C33_append_only (s : SVal) (out : Bytes) :
    s.serialize out = (match to_bytes s with
      | .ok bs => .ok ((), out ++ bs)
      | .err e => .err e
      | .panic p => .panic p
      | .depth => .depth) := by
  rw [serialize_emits s out]
  unfold Res.onto
  cases to_bytes s <;> rfl

example (out : Bytes) : (SVal.some (.i8 (-1))).serialize out =
    .ok ((), out ++ [0, 0, 0, 1, 255, 255, 255, 255]) := C33_append_only _ out

theorem concat_eq_ok (rs : List (Res Bytes)) (bs : Bytes) :
    Res.concat rs = .ok bs ↔ ∃ parts : List Bytes, rs = parts.map .ok ∧ bs = parts.flatten := by
  induction rs generalizing bs with
  | nil =>
    constructor
    · intro h; cases h; exact ⟨[], rfl, rfl⟩
    · rintro ⟨parts, h1, rfl⟩
      cases parts with
      | nil => rfl
      | cons _ _ => simp at h1
  | cons r rs ih =>
    rw [Res.concat]
    constructor
    · intro h
      obtain ⟨y, z, rfl, h2, rfl⟩ := Res.cat_eq_ok h
      obtain ⟨parts, rfl, rfl⟩ := (ih z).mp h2
      exact ⟨y :: parts, rfl, rfl⟩
    · rintro ⟨parts, h1, rfl⟩
      cases parts with
      | nil => simp at h1
      | cons p ps =>
        simp only [List.map_cons, List.cons.injEq] at h1
        obtain ⟨rfl, h1⟩ := h1
        rw [(ih ps.flatten).mpr ⟨ps, h1, rfl⟩]
        rfl

/-- C33: products are the concatenation of their members. -/
theorem C33_products (name : String) (len : Nat) (es : List SVal) (fs : List (String × SVal))
    (bs : Bytes) :
    (to_bytes (.tuple len es) = .ok bs ↔
      ∃ parts : List Bytes, es.map to_bytes = parts.map .ok ∧ bs = parts.flatten) ∧
    (to_bytes (.tupleStruct name len es) = .ok bs ↔
      ∃ parts : List Bytes, es.map to_bytes = parts.map .ok ∧ bs = parts.flatten) ∧
    (to_bytes (.struct name len fs) = .ok bs ↔
      ∃ parts : List Bytes, fs.map (fun f => to_bytes f.2) = parts.map .ok ∧ bs = parts.flatten) := by
  simp only [to_bytes_node (.tuple len es), to_bytes_node (.tupleStruct name len es),
    to_bytes_node (.struct name len fs), nodeBytes, bytesList, bytesFields]
  exact ⟨concat_eq_ok _ _, concat_eq_ok _ _, concat_eq_ok _ _⟩

example : to_bytes (.struct "S" 2 [("a", .u32 1), ("b", .str ['x'])]) =
    .ok [0, 0, 0, 1, 0, 0, 0, 1, 120, 0, 0, 0] :=
  (C33_products "S" 2 [] _ _).2.2.mpr ⟨[[0, 0, 0, 1], [0, 0, 0, 1, 120, 0, 0, 0]], rfl, rfl⟩

/-- C33: the first member that fails decides. -/
theorem C33_first_error (len : Nat) (pre post : List SVal) (s : SVal) (parts : List Bytes) (e : Error)
    (hpre : pre.map to_bytes = parts.map .ok) (h : to_bytes s = .err e) :
    to_bytes (.tuple len (pre ++ s :: post)) = .err e := by
  rw [to_bytes_node, nodeBytes]
  induction pre generalizing parts with
  | nil => rw [List.nil_append, bytesList_cons, h]; rfl
  | cons p ps ih =>
    cases parts with
    | nil => simp at hpre
    | cons b bs =>
      simp only [List.map_cons, List.cons.injEq] at hpre
      rw [List.cons_append, bytesList_cons, hpre.1, ih bs hpre.2]
      rfl

example : to_bytes (.tuple 3 [.u32 7, .seq none [], .fail "no"]) = .err .notSupported :=
  C33_first_error 3 [.u32 7] [.fail "no"] (.seq none []) [[0, 0, 0, 7]] _ rfl rfl

/-- C17: a sequence or map of unknown length. -/
theorem C17_unknown_length (es : List SVal) (ms : List (SVal × SVal)) :
    to_bytes (.seq none es) = .err .notSupported ∧ to_bytes (.map none ms) = .err .notSupported := by
  rw [to_bytes_node, to_bytes_node]
  exact ⟨rfl, rfl⟩

theorem lenBytes_mod (n : Nat) : lenBytes n = Rfc.beBytes 4 (n % 2 ^ 32) := by
  have h : ∀ n, Rfc.beBytes 4 n = be32 (UInt32.ofNat n) := by
    intro n
    simp only [Rfc.beBytes, be32, List.nil_append, List.cons_append, UInt32.toNat_ofNat']
    simp only [List.cons.injEq, and_true]
    refine ⟨?_, ?_, ?_, ?_⟩ <;> (apply UInt8.toNat_inj.mp; simp only [UInt8.toNat_ofNat']; omega)
  rw [h, lenBytes]
  congr 1
  apply UInt32.toNat_inj.mp
  simp

/-- C17: a sequence whose impl announces `n` elements is written as `n` modulo 2^32 in four bytes and
then the elements, whether or not there are `n` of them. -/
theorem C17_announced_length (n : Nat) (es : List SVal) (bs : Bytes) :
    to_bytes (.seq (some n) es) = .ok bs ↔
      ∃ parts : List Bytes, es.map to_bytes = parts.map .ok ∧
        bs = Rfc.beBytes 4 (n % 2 ^ 32) ++ parts.flatten := by
  rw [to_bytes_node, nodeBytes, countBytes, lenBytes_mod]
  constructor
  · intro h
    obtain ⟨y, z, h1, h2, rfl⟩ := Res.cat_eq_ok h
    obtain ⟨parts, h3, rfl⟩ := (concat_eq_ok _ _).mp h2
    cases h1
    exact ⟨parts, h3, rfl⟩
  · rintro ⟨parts, h, rfl⟩
    rw [bytesList, (concat_eq_ok _ _).mpr ⟨parts, h, rfl⟩]
    rfl

/-- C17 for maps: the entries are the key followed by the value. -/
theorem C17_announced_length_map (n : Nat) (es : List (SVal × SVal)) (bs : Bytes) :
    to_bytes (.map (some n) es) = .ok bs ↔
      ∃ parts : List (Bytes × Bytes),
        es.map (fun e => (to_bytes e.1, to_bytes e.2)) = parts.map (fun p => (.ok p.1, .ok p.2)) ∧
        bs = Rfc.beBytes 4 (n % 2 ^ 32) ++ parts.flatMap (fun p => p.1 ++ p.2) := by
  rw [to_bytes_node, nodeBytes, countBytes, lenBytes_mod]
  have key : ∀ z, bytesEntries es = .ok z ↔ ∃ parts : List (Bytes × Bytes),
      es.map (fun e => (to_bytes e.1, to_bytes e.2)) = parts.map (fun p => (.ok p.1, .ok p.2)) ∧
      z = parts.flatMap (fun p => p.1 ++ p.2) := by
    induction es with
    | nil =>
      intro z
      constructor
      · intro h; cases h; exact ⟨[], rfl, rfl⟩
      · rintro ⟨parts, h, rfl⟩
        cases parts with
        | nil => rfl
        | cons _ _ => simp at h
    | cons e es ih =>
      intro z
      have hc : bytesEntries (e :: es) = ((to_bytes e.1).cat (to_bytes e.2)).cat (bytesEntries es) := rfl
      rw [hc]
      constructor
      · intro h
        obtain ⟨y, z, h1, h2, rfl⟩ := Res.cat_eq_ok h
        obtain ⟨a, b, h3, h4, rfl⟩ := Res.cat_eq_ok h1
        obtain ⟨parts, h5, rfl⟩ := (ih z).mp h2
        exact ⟨(a, b) :: parts, by simp [h3, h4, h5], by simp⟩
      · rintro ⟨parts, h, rfl⟩
        cases parts with
        | nil => simp at h
        | cons p ps =>
          simp only [List.map_cons, List.cons.injEq, Prod.mk.injEq] at h
          rw [h.1.1, h.1.2, (ih _).mpr ⟨ps, h.2, rfl⟩]
          rfl
  constructor
  · intro h
    obtain ⟨y, z, h1, h2, rfl⟩ := Res.cat_eq_ok h
    obtain ⟨parts, h3, rfl⟩ := (key z).mp h2
    cases h1
    exact ⟨parts, h3, rfl⟩
  · rintro ⟨parts, h, rfl⟩
    rw [(key _).mpr ⟨parts, h, rfl⟩]
    rfl

/-- The count written need not be the number of elements. -/
example : to_bytes (.seq (some 5) [.u32 1]) = .ok [0, 0, 0, 5, 0, 0, 0, 1] :=
  (C17_announced_length 5 [.u32 1] _).mpr ⟨[[0, 0, 0, 1]], rfl, by decide⟩

end Xdr
