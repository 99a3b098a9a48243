import Verif.Proofs.Ser
import Verif.Proofs.Utf8
/-! # Lemmas: reading words, byte strings and opaque data -/

namespace Xdr

/-- `d` reads exactly the bytes `bs`, whatever follows, and returns `v`. -/
def Reads {α : Type} (d : De α) (bs : Bytes) (v : α) : Prop :=
  ∀ rest, d (bs ++ rest) = .ok (v, rest)

theorem Reads.pure {α : Type} (v : α) : Reads (Pure.pure v) [] v := fun _ => rfl

theorem Reads.bind {α β : Type} {d : De α} {f : α → De β} {bs cs : Bytes} {a : α} {b : β}
    (h : Reads d bs a) (h' : Reads (f a) cs b) : Reads (d >>= f) (bs ++ cs) b := by
  intro rest
  rw [List.append_assoc, M.bind_ok (h _), h']

theorem Reads.bind' {α β : Type} {d : De α} {f : α → De β} {bs cs ds : Bytes} {a : α} {b : β}
    (h : Reads d bs a) (h' : Reads (f a) cs b) (e : ds = bs ++ cs) : Reads (d >>= f) ds b := by
  subst e; exact h.bind h'

theorem Reads.map {α β : Type} {d : De α} {f : α → De β} {bs : Bytes} {a : α} {b : β}
    (h : Reads d bs a) (h' : Reads (f a) [] b) : Reads (d >>= f) bs b := by
  simpa using h.bind h'

theorem read_lt {len : Nat} {input : Bytes} (h : input.length < len) :
    read len input = .err (.notEnoughData (len - input.length)) := by simp [read, h]

theorem read_ge {len : Nat} {input : Bytes} (h : len ≤ input.length) :
    read len input = .ok (input.take len, input.drop len) := by
  simp [read, Nat.not_lt.mpr h]

theorem read_append (bs rest : Bytes) : read bs.length (bs ++ rest) = .ok (bs, rest) := by
  rw [read_ge (by simp)]; simp

theorem read_u32_cons (a b c d : UInt8) (rest : Bytes) :
    read_u32 (a :: b :: c :: d :: rest) = .ok (ofBe32 a b c d, rest) := by
  rw [read_u32, M.bind_ok (read_ge (by simp))]; rfl

theorem read_u32_lt {input : Bytes} (h : input.length < 4) :
    read_u32 input = .err (.notEnoughData (4 - input.length)) := by
  rw [read_u32, M.bind_err (read_lt h)]

theorem read_i32_cons (a b c d : UInt8) (rest : Bytes) :
    read_i32 (a :: b :: c :: d :: rest) = .ok ((ofBe32 a b c d).toInt32, rest) := by
  rw [read_i32, M.bind_ok (read_ge (by simp))]; rfl

theorem read_i32_lt {input : Bytes} (h : input.length < 4) :
    read_i32 input = .err (.notEnoughData (4 - input.length)) := by
  rw [read_i32, M.bind_err (read_lt h)]

theorem read_i32_eq : read_i32 = (read_u32 >>= fun v => pure v.toInt32) := by
  rw [read_i32, read_u32, M.bind_assoc']

theorem read_u64_cons (a b c d e f g h : UInt8) (rest : Bytes) :
    read_u64 (a :: b :: c :: d :: e :: f :: g :: h :: rest) = .ok (ofBe64 a b c d e f g h, rest) := by
  rw [read_u64, M.bind_ok (read_ge (by simp))]; rfl

theorem read_u64_lt {input : Bytes} (h : input.length < 8) :
    read_u64 input = .err (.notEnoughData (8 - input.length)) := by
  rw [read_u64, M.bind_err (read_lt h)]

theorem read_i64_eq : read_i64 = (read_u64 >>= fun v => pure v.toInt64) := by
  rw [read_i64, read_u64, M.bind_assoc']

theorem read_f32_eq : read_f32 = read_u32 := rfl
theorem read_f64_eq : read_f64 = read_u64 := rfl

theorem exists_word {input : Bytes} (h : 4 ≤ input.length) :
    ∃ a b c d rest, input = a :: b :: c :: d :: rest := by
  match input, h with
  | a :: b :: c :: d :: rest, _ => exact ⟨a, b, c, d, rest, rfl⟩

theorem exists_dword {input : Bytes} (h : 8 ≤ input.length) :
    ∃ a b c d e f g i rest, input = a :: b :: c :: d :: e :: f :: g :: i :: rest := by
  match input, h with
  | a :: b :: c :: d :: e :: f :: g :: i :: rest, _ => exact ⟨a, b, c, d, e, f, g, i, rest, rfl⟩

theorem reads_u32 (v : UInt32) : Reads read_u32 (be32 v) v := by
  intro rest
  rw [be32]
  simp only [List.cons_append, List.nil_append]
  rw [read_u32_cons, ofBe32_be32]

theorem reads_i32 (v : Int32) : Reads read_i32 (be32 v.toUInt32) v := by
  rw [read_i32_eq]
  exact (reads_u32 _).map (by simpa using Reads.pure v)

theorem reads_u64 (v : UInt64) : Reads read_u64 (be64 v) v := by
  intro rest
  rw [be64]
  simp only [List.cons_append, List.nil_append]
  rw [read_u64_cons, ofBe64_be64]

theorem reads_i64 (v : Int64) : Reads read_i64 (be64 v.toUInt64) v := by
  rw [read_i64_eq]
  exact (reads_u64 _).map (by simpa using Reads.pure v)

theorem charFromU32_val (c : Char) : charFromU32 c.val = some c := by
  have h : c.val.isValidChar := c.valid
  simp [charFromU32, h]

theorem reads_char (c : Char) : Reads read_char (be32 c.val) c := by
  refine (reads_u32 _).map ?_
  intro rest
  rw [charFromU32_val]; rfl

theorem lenBytes_reads {n : Nat} (h : n < 2 ^ 32) : ∀ rest,
    ∃ v, read_u32 (lenBytes n ++ rest) = .ok (v, rest) ∧ v.toNat = n := by
  intro rest
  refine ⟨UInt32.ofNat n, reads_u32 _ rest, ?_⟩
  rw [UInt32.toNat_ofNat', Nat.mod_eq_of_lt h]

/-- Number of padding bytes for a payload of `n` bytes. -/
def padLen (n : Nat) : Nat := (4 - n % 4) % 4

theorem padLen_add (n : Nat) : n + padLen n = 4 * ((n + 3) / 4) := by
  unfold padLen; omega

theorem padLen_lt (n : Nat) : padLen n < 4 := by unfold padLen; omega

/-- The padding step of `read_string` / `read_bytes`. -/
theorem skip_eq {α : Type} (n : Nat) (v : α) (input : Bytes) :
    (if 4 - n % 4 < 4 then (do skipPadding (4 - n % 4); pure v) else (pure v : De α)) input =
      if padLen n ≤ input.length then .ok (v, input.drop (padLen n)) else .panic .paddingSlice := by
  unfold padLen
  split
  · rename_i h
    rw [Nat.mod_eq_of_lt h, M.bind_run, skipPadding]
    by_cases hp : 4 - n % 4 ≤ input.length <;> simp [hp]
  · rename_i h
    have : (4 - n % 4) % 4 = 0 := by omega
    simp [this]

/-- `read_bytes`, completely. -/
theorem read_bytes_run (a b c d : UInt8) (input : Bytes) (n : Nat) (hn : (ofBe32 a b c d).toNat = n) :
    read_bytes (a :: b :: c :: d :: input) =
      if input.length < n then .err (.notEnoughData (n - input.length))
      else if input.length < n + padLen n then .panic .paddingSlice
      else .ok (input.take n, input.drop (n + padLen n)) := by
  rw [read_bytes, M.bind_ok (read_u32_cons ..)]
  simp only [hn]
  by_cases h : input.length < n
  · rw [if_pos h, M.bind_err (read_lt h)]
  · rw [if_neg h, M.bind_ok (read_ge (Nat.not_lt.mp h))]
    refine (skip_eq ..).trans ?_
    by_cases hp : input.length < n + padLen n
    · have : ¬ padLen n ≤ (input.drop n).length := by simp; omega
      rw [if_neg this, if_pos hp]
    · have : padLen n ≤ (input.drop n).length := by simp; omega
      rw [if_pos this, if_neg hp]
      simp

/-- `read_string`, completely. -/
theorem read_string_run (a b c d : UInt8) (input : Bytes) (n : Nat)
    (hn : (ofBe32 a b c d).toNat = n) :
    read_string (a :: b :: c :: d :: input) =
      if input.length < n then .err (.notEnoughData (n - input.length))
      else match utf8Decode (input.take n) with
        | none => .err (.encoding (utf8Fault (input.take n)))
        | some s =>
          if input.length < n + padLen n then .panic .paddingSlice
          else .ok (s, input.drop (n + padLen n)) := by
  rw [read_string, M.bind_ok (read_u32_cons ..)]
  simp only [hn]
  by_cases h : input.length < n
  · rw [if_pos h, M.bind_err (read_lt h)]
  · rw [if_neg h, M.bind_ok (read_ge (Nat.not_lt.mp h)), from_utf8_eq]
    cases utf8Decode (input.take n) with
    | none => rfl
    | some s =>
      refine (skip_eq ..).trans ?_
      simp only []
      by_cases hp : input.length < n + padLen n
      · have : ¬ padLen n ≤ (input.drop n).length := by simp; omega
        rw [if_neg this, if_pos hp]
      · have : padLen n ≤ (input.drop n).length := by simp; omega
        rw [if_pos this, if_neg hp]
        simp

theorem opaqueBytes_eq (v : Bytes) :
    opaqueBytes v = lenBytes v.length ++ (v ++ List.replicate (padLen v.length) 0) := rfl

theorem reads_bytes_pad {v : Bytes} (h : v.length < 2 ^ 32) (pad : Bytes)
    (hp : pad.length = padLen v.length) :
    Reads read_bytes (lenBytes v.length ++ (v ++ pad)) v := by
  intro rest
  have hl : (UInt32.ofNat v.length).toNat = v.length := by
    rw [UInt32.toNat_ofNat', Nat.mod_eq_of_lt h]
  simp only [lenBytes, be32, List.cons_append, List.nil_append, List.append_assoc]
  rw [read_bytes_run _ _ _ _ _ v.length (by rw [ofBe32_be32, hl])]
  rw [if_neg (by simp), if_neg (by simp; omega), ← hp]
  simp [List.drop_append]

theorem reads_bytes {v : Bytes} (h : v.length < 2 ^ 32) : Reads read_bytes (opaqueBytes v) v :=
  reads_bytes_pad h _ (by simp [padLen])

theorem reads_string_pad {s : List Char} (h : (utf8Bytes s).length < 2 ^ 32) (pad : Bytes)
    (hp : pad.length = padLen (utf8Bytes s).length) :
    Reads read_string (lenBytes (utf8Bytes s).length ++ (utf8Bytes s ++ pad)) s := by
  intro rest
  generalize hv : utf8Bytes s = v at *
  have hl : (UInt32.ofNat v.length).toNat = v.length := by
    rw [UInt32.toNat_ofNat', Nat.mod_eq_of_lt h]
  simp only [lenBytes, be32, List.cons_append, List.nil_append, List.append_assoc]
  rw [read_string_run _ _ _ _ _ v.length (by rw [ofBe32_be32, hl])]
  rw [if_neg (by simp)]
  have : List.take v.length (v ++ (pad ++ rest)) = v := by simp
  rw [this, ← hv, utf8Decode_bytes, hv]
  simp only []
  rw [if_neg (by simp; omega), ← hp]
  simp [List.drop_append]

theorem reads_string {s : List Char} (h : (utf8Bytes s).length < 2 ^ 32) :
    Reads read_string (opaqueBytes (utf8Bytes s)) s :=
  reads_string_pad h _ (by simp [padLen])

/-! ## Sequences -/

theorem Seq.next_zero {α : Type} (seed : De α) :
    Seq.next_element { count := 0 } seed = pure (none, { count := 0 }) := rfl

theorem Seq.next_succ {α : Type} (n : Nat) (seed : De α) :
    Seq.next_element { count := n + 1 } seed = (seed >>= fun v => pure (some v, { count := n })) := rfl

theorem next_reads {α : Type} {n : Nat} {seed : De α} {bs : Bytes} {v : α} (h : Reads seed bs v) :
    Reads (Seq.next_element { count := n + 1 } seed) bs (some v, { count := n }) := by
  rw [Seq.next_succ]
  exact h.map (Reads.pure _)

/-- Decoders paired with what they read. -/
inductive ReadsAll : List (De Val) → Bytes → List Val → Prop
  | nil : ReadsAll [] [] []
  | cons {d ds bs cs v vs} : Reads d bs v → ReadsAll ds cs vs →
      ReadsAll (d :: ds) (bs ++ cs) (v :: vs)

theorem ReadsAll.length {ds bs vs} (h : ReadsAll ds bs vs) : ds.length = vs.length := by
  induction h with
  | nil => rfl
  | cons _ _ ih => simp [ih]

theorem reads_visitEach {ds : List (De Val)} {bs : Bytes} {vs : List Val} (h : ReadsAll ds bs vs)
    (exp : String) (i n : Nat) (hn : ds.length ≤ n) :
    Reads (visitEach exp ds i { count := n }) bs vs := by
  induction h generalizing i n with
  | nil => exact Reads.pure _
  | cons h1 _ ih =>
    obtain ⟨m, rfl⟩ : ∃ m, n = m + 1 := ⟨n - 1, by simp at hn; omega⟩
    rw [visitEach]
    refine (next_reads h1).bind ?_
    refine (ih (i + 1) m (by simp at hn; omega)).map (Reads.pure _)

theorem reads_visitUnwrap {ds : List (De Val)} {bs : Bytes} {vs : List Val} (h : ReadsAll ds bs vs)
    (n : Nat) (hn : ds.length ≤ n) : Reads (visitUnwrap ds { count := n }) bs vs := by
  induction h generalizing n with
  | nil => exact Reads.pure _
  | cons h1 _ ih =>
    obtain ⟨m, rfl⟩ : ∃ m, n = m + 1 := ⟨n - 1, by simp at hn; omega⟩
    rw [visitUnwrap]
    refine (next_reads h1).bind ?_
    refine (ih m (by simp at hn; omega)).map (Reads.pure _)

theorem reads_visitVec {d : De Val} {bs : Bytes} {vs : List Val} {n : Nat}
    (h : ReadsAll (List.replicate n d) bs vs) : Reads (visitVec d (n + 1) { count := n }) bs vs := by
  induction n generalizing bs vs with
  | zero => cases h; exact Reads.pure _
  | succ n ih =>
    rw [List.replicate_succ] at h
    cases h with
    | cons h1 h2 =>
      rw [visitVec]
      refine (next_reads h1).bind ?_
      exact (ih h2).map (Reads.pure _)

/-! ## Maps -/

theorem nextKey_reads {α : Type} {n : Nat} {seed : De α} {bs : Bytes} {v : α} (h : Reads seed bs v) :
    Reads (MapAcc.next_key { count := n + 1 } seed) bs (some v, { count := n }) := by
  have : MapAcc.next_key { count := n + 1 } seed = (seed >>= fun v => pure (some v, { count := n })) :=
    rfl
  rw [this]
  exact h.map (Reads.pure _)

/-- Key and value decoders reading a list of entries. -/
inductive ReadsEntries (dk dv : De Val) : Bytes → List (Val × Val) → Prop
  | nil : ReadsEntries dk dv [] []
  | cons {bs cs ds k v es} : Reads dk bs k → Reads dv cs v → ReadsEntries dk dv ds es →
      ReadsEntries dk dv (bs ++ (cs ++ ds)) ((k, v) :: es)

/-- Insert entries one after the other. -/
def insertAll (acc : List (Val × Val)) : List (Val × Val) → List (Val × Val)
  | [] => acc
  | (k, v) :: es => insertAll (mapInsert k v acc) es

theorem reads_visitMap {dk dv : De Val} {bs : Bytes} {es : List (Val × Val)}
    (h : ReadsEntries dk dv bs es) (acc : List (Val × Val)) :
    Reads (visitMap dk dv (es.length + 1) { count := es.length } acc) bs (insertAll acc es) := by
  induction h generalizing acc with
  | nil => exact Reads.pure _
  | cons h1 h2 _ ih =>
    rw [List.length_cons, visitMap]
    refine (nextKey_reads h1).bind ?_
    refine Reads.bind h2 ?_
    exact ih _

/-! ## Opaque -/

/-- The bytes of the words of a byte string: the bytes and zero padding. -/
theorem flatMap_enumerate (v : Bytes) :
    (enumerate_u32 v).flatMap be32 = v ++ List.replicate (padLen v.length) 0 := by
  unfold enumerate_u32
  induction v using chunks4.induct with
  | case1 a b c d rest ih =>
    rw [chunks4, List.map_cons, List.flatMap_cons, ih]
    have : padLen (a :: b :: c :: d :: rest).length = padLen rest.length := by
      simp only [padLen, List.length_cons]; omega
    rw [this]
    simp [chunkNumber, be32_ofBe32]
  | case2 => rfl
  | case3 short h1 h2 =>
    match short, h1, h2 with
    | [], _, h2 => simp at h2
    | [a], _, _ => simp [chunks4, chunkNumber, be32_ofBe32, padLen]
    | [a, b], _, _ => simp [chunks4, chunkNumber, be32_ofBe32, padLen]
    | [a, b, c], _, _ => simp [chunks4, chunkNumber, be32_ofBe32, padLen]
    | a :: b :: c :: d :: rest, h1, _ => exact absurd rfl (h1 a b c d rest)

theorem bytesList_u32 (ws : List UInt32) : bytesList (ws.map .u32) = .ok (ws.flatMap be32) := by
  induction ws with
  | nil => rfl
  | cons w ws ih =>
    rw [List.map_cons, bytesList_cons, ih, to_bytes_node]; rfl

theorem to_bytes_fixed (v : Bytes) :
    to_bytes (fixed_serialize v) = .ok (v ++ List.replicate (padLen v.length) 0) := by
  rw [fixed_serialize, to_bytes_node, nodeBytes, bytesList_u32, flatMap_enumerate]

theorem to_bytes_variable (v : Bytes) :
    to_bytes (variable_serialize v) = .ok (opaqueBytes v) := by
  rw [variable_serialize, to_bytes_node, nodeBytes, bytesList_u32, flatMap_enumerate]; rfl

/-- State of the `enumerate_u8` loop after the bytes `l`. -/
def filled (size : Nat) (l : Bytes) : Bytes × Nat :=
  (l.take size ++ List.replicate (size - l.length) 0, min size l.length)

theorem writeByte_filled (size : Nat) (l : Bytes) (b : UInt8) :
    writeByte size (filled size l) b = filled size (l ++ [b]) := by
  unfold writeByte filled
  simp only []
  by_cases h : l.length < size
  · rw [if_pos (by omega)]
    have hm : min size l.length = l.length := by omega
    have h1 : l.take size = l := List.take_of_length_le (by omega)
    have h2 : (l ++ [b]).take size = l ++ [b] := List.take_of_length_le (by simp; omega)
    rw [hm, h1, h2]
    obtain ⟨k, hk⟩ : ∃ k, size - l.length = k + 1 := ⟨size - l.length - 1, by omega⟩
    have hk' : size - (l ++ [b]).length = k := by simp; omega
    rw [hk, hk', List.replicate_succ]
    refine Prod.ext ?_ (by simp; omega)
    simp
  · rw [if_neg (by omega)]
    refine Prod.ext ?_ (by simp; omega)
    have h1 : size - l.length = 0 := by omega
    have h2 : size - (l ++ [b]).length = 0 := by simp; omega
    simp only [h1, h2, List.replicate_zero, List.append_nil]
    rw [List.take_append_of_le_length (by omega)]

theorem foldl_writeByte (size : Nat) (l bs : Bytes) :
    bs.foldl (writeByte size) (filled size l) = filled size (l ++ bs) := by
  induction bs generalizing l with
  | nil => simp
  | cons b bs ih => rw [List.foldl_cons, writeByte_filled, ih]; simp

/-- The `enumerate_u8` loop, completely. -/
theorem enumerate_u8_loop_run (size n count : Nat) (l input : Bytes) (hc : n ≤ count) :
    enumerate_u8_loop size n { count := count } (filled size l) input =
      if input.length < 4 * n then .err (.notEnoughData (4 - input.length % 4))
      else .ok ((filled size (l ++ input.take (4 * n))).1, input.drop (4 * n)) := by
  induction n generalizing count l input with
  | zero => simp [enumerate_u8_loop]
  | succ n ih =>
    obtain ⟨m, rfl⟩ : ∃ m, count = m + 1 := ⟨count - 1, by omega⟩
    rw [enumerate_u8_loop, Seq.next_succ]
    by_cases h4 : input.length < 4
    · rw [if_pos (by omega)]
      rw [M.bind_err (e := .notEnoughData (4 - input.length))]
      · congr 2; omega
      · rw [M.bind_err]
        unfold deserialize_u32
        rw [M.bind_err (read_u32_lt h4)]
    · obtain ⟨a, b, c, d, rest, rfl⟩ := exists_word (Nat.not_lt.mp h4)
      have e : deserialize_u32 (pure : UInt32 → De UInt32) (a :: b :: c :: d :: rest) =
          .ok (ofBe32 a b c d, rest) := by
        unfold deserialize_u32
        rw [M.bind_ok (read_u32_cons ..)]; rfl
      rw [M.bind_ok (a := (some (ofBe32 a b c d), { count := m })) (s' := rest)
        (by rw [M.bind_ok e]; rfl)]
      simp only []
      rw [be32_ofBe32, foldl_writeByte, ih m _ _ (by omega)]
      by_cases h : rest.length < 4 * n
      · rw [if_pos h, if_pos (by simp; omega)]
        congr 2
        simp only [List.length_cons]; omega
      · rw [if_neg h, if_neg (by simp; omega)]
        have e4 : 4 * (n + 1) = 4 * n + 4 := by omega
        rw [e4]
        simp [List.append_assoc]

/-- `enumerate_u8` on a sequence access of `size` elements, completely. -/
theorem enumerate_u8_run (size : Nat) (input : Bytes) :
    enumerate_u8 { count := size } input =
      if input.length < size + padLen size then .err (.notEnoughData (4 - input.length % 4))
      else .ok (input.take size, input.drop (size + padLen size)) := by
  have h0 : (List.replicate size (0 : UInt8), 0) = filled size [] := by simp [filled]
  show enumerate_u8_loop size ((size + 3) / 4) { count := size } (List.replicate size 0, 0) input = _
  rw [h0, enumerate_u8_loop_run _ _ _ _ _ (by omega), ← padLen_add]
  split
  · rfl
  · rename_i h
    have : size ≤ (input.take (size + padLen size)).length := by simp; omega
    congr 2
    simp only [filled, List.nil_append]
    have e : size - (input.take (size + padLen size)).length = 0 := by omega
    rw [e, List.take_take]
    simp

/-- `opaque::fixed::deserialize`, completely. -/
theorem fixed_deserialize_run (n : Nat) (input : Bytes) :
    fixed_deserialize n input =
      if input.length < n + padLen n then .err (.notEnoughData (4 - input.length % 4))
      else .ok (input.take n, input.drop (n + padLen n)) := by
  unfold fixed_deserialize deserialize_tuple visitFixed
  split
  · rename_i h
    rw [M.bind_err]
    rw [enumerate_u8_run, if_pos h]
  · rename_i h
    rw [M.bind_ok (a := input.take n) (s' := input.drop (n + padLen n))]
    · rw [if_pos (by simp; omega)]; rfl
    · rw [enumerate_u8_run, if_neg h]

/-- `opaque::variable::deserialize`, completely (after the count). -/
theorem variable_deserialize_run (a b c d : UInt8) (input : Bytes) (n : Nat)
    (hn : (ofBe32 a b c d).toNat = n) :
    variable_deserialize (a :: b :: c :: d :: input) =
      if input.length < n + padLen n then .err (.notEnoughData (4 - input.length % 4))
      else .ok (input.take n, input.drop (n + padLen n)) := by
  unfold variable_deserialize deserialize_seq
  rw [M.bind_ok (read_u32_cons ..), hn, enumerate_u8_run]

theorem variable_deserialize_lt {input : Bytes} (h : input.length < 4) :
    variable_deserialize input = .err (.notEnoughData (4 - input.length)) := by
  unfold variable_deserialize deserialize_seq
  rw [M.bind_err (read_u32_lt h)]

theorem reads_fixed_pad (v pad : Bytes) (hp : pad.length = padLen v.length) :
    Reads (fixed_deserialize v.length) (v ++ pad) v := by
  intro rest
  rw [fixed_deserialize_run, if_neg (by simp; omega), ← hp]
  simp [List.drop_append]

theorem reads_variable_pad {v : Bytes} (h : v.length < 2 ^ 32) (pad : Bytes)
    (hp : pad.length = padLen v.length) :
    Reads variable_deserialize (lenBytes v.length ++ (v ++ pad)) v := by
  intro rest
  have hl : (UInt32.ofNat v.length).toNat = v.length := by
    rw [UInt32.toNat_ofNat', Nat.mod_eq_of_lt h]
  simp only [lenBytes, be32, List.cons_append, List.nil_append, List.append_assoc]
  rw [variable_deserialize_run _ _ _ _ _ v.length (by rw [ofBe32_be32, hl])]
  rw [if_neg (by simp; omega), ← hp]
  simp [List.drop_append]

theorem reads_variable {v : Bytes} (h : v.length < 2 ^ 32) :
    Reads variable_deserialize (opaqueBytes v) v := reads_variable_pad h _ (by simp [padLen])

end Xdr
