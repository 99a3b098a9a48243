import Verif.Proofs.Basic
/-! # Lemmas: the serializer only appends, and its output is compositional -/

namespace Xdr

/-- The bytes of a serializer computation, run on an empty output. -/
def Res.bytes (r : Res (Unit × Bytes)) : Res Bytes :=
  match r with
  | .ok (_, b) => .ok b
  | .err e => .err e
  | .panic p => .panic p
  | .depth => .depth

/-- Prepend what was written before. -/
def Res.onto (out : Bytes) (r : Res Bytes) : Res (Unit × Bytes) :=
  match r with
  | .ok b => .ok ((), out ++ b)
  | .err e => .err e
  | .panic p => .panic p
  | .depth => .depth

/-- Concatenate outputs, the first failure wins. -/
def Res.cat (a b : Res Bytes) : Res Bytes := a.bind fun x => b.bind fun y => .ok (x ++ y)

/-- Concatenate a list of outputs. -/
def Res.concat : List (Res Bytes) → Res Bytes
  | [] => .ok []
  | r :: rs => r.cat (Res.concat rs)

/-- `m` appends the bytes `r`, whatever was written before. -/
def Emits (m : Ser) (r : Res Bytes) : Prop := ∀ out, m out = r.onto out

theorem emit_run (b out : Bytes) : emit b out = .ok ((), out ++ b) := rfl

theorem Emits.unique {m : Ser} {r r' : Res Bytes} (h : Emits m r) (h' : Emits m r') : r = r' := by
  have e := (h []).symm.trans (h' [])
  cases r <;> cases r' <;> simp_all [Res.onto]

theorem Emits.emit (b : Bytes) : Emits (emit b) (.ok b) := fun _ => rfl
theorem Emits.pure : Emits (Pure.pure ()) (.ok []) := fun out => by simp [Res.onto]
theorem Emits.fail (e : Error) : Emits (M.fail e) (.err e) := fun _ => rfl
theorem Emits.panic (e : PanicSite) : Emits (M.panic e) (.panic e) := fun _ => rfl

theorem Emits.seq {m m' : Ser} {r r' : Res Bytes} (h : Emits m r) (h' : Emits m' r') :
    Emits (m >>= fun _ => m') (r.cat r') := by
  intro out
  rw [M.bind_run, h out]
  cases r with
  | ok b =>
    simp only [Res.onto, h' (out ++ b), Res.cat, Res.bind]
    cases r' <;> simp
  | _ => simp [Res.onto, Res.cat, Res.bind]

theorem Emits.seqDo {m m' : Ser} {r r' : Res Bytes} (h : Emits m r) (h' : Emits m' r') :
    Emits (do m; m') (r.cat r') := Emits.seq h h'

@[simp] theorem Res.cat_nil (r : Res Bytes) : r.cat (.ok []) = r := by
  cases r <;> simp [Res.cat, Res.bind]
@[simp] theorem Res.nil_cat (r : Res Bytes) : Res.cat (.ok []) r = r := by
  cases r <;> simp [Res.cat, Res.bind]
@[simp] theorem Res.ok_cat_ok (a b : Bytes) : Res.cat (.ok a) (.ok b) = .ok (a ++ b) := rfl
@[simp] theorem Res.err_cat (e : Error) (r : Res Bytes) : Res.cat (.err e) r = .err e := rfl
@[simp] theorem Res.panic_cat (e : PanicSite) (r : Res Bytes) :
    Res.cat (.panic e) r = .panic e := rfl

theorem Res.cat_assoc (a b c : Res Bytes) : (a.cat b).cat c = a.cat (b.cat c) := by
  cases a <;> cases b <;> cases c <;> simp [Res.cat, Res.bind]

theorem Res.cat_eq_ok {a b : Res Bytes} {x : Bytes} (h : a.cat b = .ok x) :
    ∃ y z, a = .ok y ∧ b = .ok z ∧ x = y ++ z := by
  cases a <;> cases b <;> simp_all [Res.cat, Res.bind]

theorem Emits.forEach {α : Type} {f : α → Ser} {xs : List α} {g : α → Res Bytes}
    (h : ∀ x ∈ xs, Emits (f x) (g x)) : Emits (forEach f xs) (Res.concat (xs.map g)) := by
  induction xs with
  | nil => exact Emits.pure
  | cons x xs ih =>
    exact Emits.seq (h x (by simp)) (ih fun y hy => h y (by simp [hy]))

/-- Output of `m` on an empty buffer. -/
def outBytes (m : Ser) : Res Bytes := (m []).bytes

theorem Emits.outBytes {m : Ser} {r : Res Bytes} (h : Emits m r) : outBytes m = r := by
  unfold Xdr.outBytes
  rw [h []]
  cases r <;> simp [Res.onto, Res.bytes]

theorem Emits.self {m : Ser} {r : Res Bytes} (h : Emits m r) : Emits m (Xdr.outBytes m) := by
  rw [h.outBytes]; exact h

theorem to_bytes_eq (s : SVal) : to_bytes s = outBytes s.serialize := by
  unfold to_bytes outBytes Res.bytes
  cases s.serialize [] <;> rfl

/-- The bytes of a variant index, or `Convert`. -/
def indexBytes (i : UInt32) : Res Bytes :=
  if i.toNat < 2 ^ 31 then .ok (be32 i) else .err .convert

theorem toUInt32_ofNat_toNat (i : UInt32) : (Int32.ofNat i.toNat).toUInt32 = i := by
  apply UInt32.toNat_inj.mp
  simp [Int32.ofNat]

theorem Emits.index (i : UInt32) :
    Emits (tryIntoI32 i >>= fun x => serialize_i32 x) (indexBytes i) := by
  unfold tryIntoI32 indexBytes
  split
  · rw [M.pure_bind', serialize_i32, toUInt32_ofNat_toNat]; exact Emits.emit _
  · intro out; rfl

theorem Emits.indexThen (i : UInt32) {m : Ser} {r : Res Bytes} (h : Emits m r) :
    Emits (tryIntoI32 i >>= fun x => serialize_i32 x >>= fun _ => m) ((indexBytes i).cat r) := by
  rw [← M.bind_assoc']
  exact Emits.seq (Emits.index i) h

/-- Bytes of a count. -/
def lenBytes (n : Nat) : Bytes := be32 (UInt32.ofNat n)

/-- Length, bytes, zero padding. -/
def opaqueBytes (v : Bytes) : Bytes :=
  lenBytes v.length ++ (v ++ List.replicate ((4 - v.length % 4) % 4) 0)

theorem Emits.bytes (v : Bytes) : Emits (serialize_bytes v) (.ok (opaqueBytes v)) := by
  intro out
  simp only [serialize_bytes, serialize_u32, M.bind_run, emit_run, Res.onto, opaqueBytes, lenBytes]
  split
  · rename_i h
    rw [Nat.mod_eq_of_lt h]; simp [emit_run]
  · rename_i h
    have : (4 - v.length % 4) % 4 = 0 := by omega
    rw [this]; simp

/-- Optional length of a seq or map call. -/
def countBytes : Option Nat → Res Bytes
  | none => .err .notSupported
  | some n => .ok (lenBytes n)

theorem Emits.seqHead (len : Option Nat) : Emits (serialize_seq len) (countBytes len) := by
  cases len <;> intro out <;> rfl

theorem Emits.mapHead (len : Option Nat) : Emits (serialize_map len) (countBytes len) := by
  cases len <;> intro out <;> rfl

/-- Bytes of every child in order. -/
def bytesList (es : List SVal) : Res Bytes := Res.concat (es.map to_bytes)
/-- Bytes of every entry in order. -/
def bytesEntries (es : List (SVal × SVal)) : Res Bytes :=
  Res.concat (es.map fun e => (to_bytes e.1).cat (to_bytes e.2))
/-- Bytes of every field in order. -/
def bytesFields (fs : List (String × SVal)) : Res Bytes :=
  Res.concat (fs.map fun f => to_bytes f.2)

theorem serializeList_eq (es : List SVal) : serializeList es = es.map SVal.serialize := by
  induction es with
  | nil => rfl
  | cons e es ih => rw [serializeList, ih]; rfl

theorem serializeEntries_eq (es : List (SVal × SVal)) :
    serializeEntries es = es.map fun e => (e.1.serialize, e.2.serialize) := by
  induction es with
  | nil => rfl
  | cons e es ih => obtain ⟨k, v⟩ := e; rw [serializeEntries, ih]; rfl

theorem serializeFields_eq (fs : List (String × SVal)) :
    serializeFields fs = fs.map fun e => (e.1, e.2.serialize) := by
  induction fs with
  | nil => rfl
  | cons e es ih => obtain ⟨k, v⟩ := e; rw [serializeFields, ih]; rfl

theorem Emits.children {es : List SVal} {f : Ser → Ser} (hf : ∀ m, f m = m)
    (h : ∀ e ∈ es, Emits e.serialize (to_bytes e)) :
    Emits (Xdr.forEach f (serializeList es) >>= fun _ => Pure.pure ()) (bytesList es) := by
  have : f = fun m => m := funext hf
  subst this
  have e1 : Emits (Xdr.forEach (fun m => m) (serializeList es)) (bytesList es) := by
    rw [serializeList_eq]
    unfold bytesList
    induction es with
    | nil => exact Emits.pure
    | cons x xs ih =>
      exact Emits.seq (h x (by simp)) (ih fun y hy => h y (by simp [hy]))
  simpa using Emits.seq e1 Emits.pure

theorem Emits.entries {es : List (SVal × SVal)} {f : Ser × Ser → Ser}
    (hf : ∀ m, f m = (m.1 >>= fun _ => m.2))
    (h : ∀ e ∈ es, Emits e.1.serialize (to_bytes e.1) ∧ Emits e.2.serialize (to_bytes e.2)) :
    Emits (Xdr.forEach f (serializeEntries es) >>= fun _ => Pure.pure ()) (bytesEntries es) := by
  have : f = fun m => m.1 >>= fun _ => m.2 := funext hf
  subst this
  have e1 : Emits (Xdr.forEach (fun m : Ser × Ser => m.1 >>= fun _ => m.2) (serializeEntries es))
      (bytesEntries es) := by
    rw [serializeEntries_eq]
    unfold bytesEntries
    induction es with
    | nil => exact Emits.pure
    | cons x xs ih =>
      exact Emits.seq (Emits.seq (h x (by simp)).1 (h x (by simp)).2)
        (ih fun y hy => h y (by simp [hy]))
  simpa using Emits.seq e1 Emits.pure

theorem Emits.fields {fs : List (String × SVal)} {f : String × Ser → Ser} (hf : ∀ m, f m = m.2)
    (h : ∀ e ∈ fs, Emits e.2.serialize (to_bytes e.2)) :
    Emits (Xdr.forEach f (serializeFields fs) >>= fun _ => Pure.pure ()) (bytesFields fs) := by
  have : f = fun m => m.2 := funext hf
  subst this
  have e1 : Emits (Xdr.forEach (fun m : String × Ser => m.2) (serializeFields fs))
      (bytesFields fs) := by
    rw [serializeFields_eq]
    unfold bytesFields
    induction fs with
    | nil => exact Emits.pure
    | cons x xs ih =>
      exact Emits.seq (h x (by simp)) (ih fun y hy => h y (by simp [hy]))
  simpa using Emits.seq e1 Emits.pure

/-- The bytes a call tree writes, by cases on the call. -/
def nodeBytes : SVal → Res Bytes
  | .bool v => .ok (be32 (if v then 1 else 0))
  | .i8 v => .ok (be32 v.toInt32.toUInt32)
  | .i16 v => .ok (be32 v.toInt32.toUInt32)
  | .i32 v => .ok (be32 v.toUInt32)
  | .i64 v => .ok (be64 v.toUInt64)
  | .i128 _ => .err (.custom "i128 is not supported")
  | .u8 v => .ok (be32 v.toUInt32)
  | .u16 v => .ok (be32 v.toUInt32)
  | .u32 v => .ok (be32 v)
  | .u64 v => .ok (be64 v)
  | .u128 _ => .err (.custom "u128 is not supported")
  | .f32 v => .ok (be32 v)
  | .f64 v => .ok (be64 v)
  | .char v => .ok (be32 v.val)
  | .str v => .ok (opaqueBytes (utf8Bytes v))
  | .bytes v => .ok (opaqueBytes v)
  | .none => .ok (be32 0)
  | .some v => (Res.ok (be32 1)).cat (to_bytes v)
  | .unit => .ok []
  | .unitStruct _ => .ok []
  | .unitVariant _ i _ => indexBytes i
  | .newtypeStruct _ v => to_bytes v
  | .newtypeVariant _ i _ v => (indexBytes i).cat (to_bytes v)
  | .seq len es => (countBytes len).cat (bytesList es)
  | .tuple _ es => bytesList es
  | .tupleStruct _ _ es => bytesList es
  | .tupleVariant _ i _ _ es => (indexBytes i).cat (bytesList es)
  | .map len es => (countBytes len).cat (bytesEntries es)
  | .struct _ _ fs => bytesFields fs
  | .structVariant _ i _ _ fs => (indexBytes i).cat (bytesFields fs)
  | .fail m => .err (.custom m)
  | .panic p => .panic p

theorem Emits.node (s : SVal)
    (h1 : ∀ v, s = .some v ∨ (∃ n, s = .newtypeStruct n v) ∨ (∃ n i a, s = .newtypeVariant n i a v) →
      Emits v.serialize (to_bytes v))
    (h2 : ∀ es, (∃ l, s = .seq l es) ∨ (∃ l, s = .tuple l es) ∨ (∃ n l, s = .tupleStruct n l es) ∨
      (∃ n i a l, s = .tupleVariant n i a l es) → ∀ e ∈ es, Emits e.serialize (to_bytes e))
    (h3 : ∀ es, (∃ l, s = .map l es) →
      ∀ e ∈ es, Emits e.1.serialize (to_bytes e.1) ∧ Emits e.2.serialize (to_bytes e.2))
    (h4 : ∀ fs, (∃ n l, s = .struct n l fs) ∨ (∃ n i a l, s = .structVariant n i a l fs) →
      ∀ e ∈ fs, Emits e.2.serialize (to_bytes e.2)) :
    Emits s.serialize (nodeBytes s) := by
  cases s with
  | str v => exact Emits.bytes _
  | bytes v => exact Emits.bytes _
  | some v =>
    rw [SVal.serialize]
    exact Emits.seq (Emits.emit _) (h1 v (by simp))
  | unit => exact Emits.pure
  | unitStruct _ => exact Emits.pure
  | unitVariant n i a => exact Emits.index i
  | newtypeStruct n v =>
    rw [SVal.serialize]
    exact h1 v (by simp)
  | newtypeVariant n i a v =>
    rw [SVal.serialize]
    exact Emits.indexThen i (h1 v (by simp))
  | seq l es =>
    rw [SVal.serialize]
    exact Emits.seq (Emits.seqHead l) (Emits.children (fun _ => rfl) (h2 es (by simp)))
  | tuple l es =>
    rw [SVal.serialize]
    exact Emits.children (fun _ => rfl) (h2 es (by simp))
  | tupleStruct n l es =>
    rw [SVal.serialize]
    exact Emits.children (fun _ => rfl) (h2 es (by simp))
  | tupleVariant n i a l es =>
    rw [SVal.serialize]
    exact Emits.seq (Emits.index i) (Emits.children (fun _ => rfl) (h2 es (by simp)))
  | map l es =>
    rw [SVal.serialize]
    exact Emits.seq (Emits.mapHead l) (Emits.entries (fun _ => rfl) (h3 es (by simp)))
  | struct n l fs =>
    rw [SVal.serialize]
    exact Emits.fields (fun _ => rfl) (h4 fs (by simp))
  | structVariant n i a l fs =>
    rw [SVal.serialize]
    exact Emits.seq (Emits.index i) (Emits.fields (fun _ => rfl) (h4 fs (by simp)))
  | fail m => exact Emits.fail _
  | panic p => exact Emits.panic _
  | i128 v => exact Emits.fail _
  | u128 v => exact Emits.fail _
  | _ => exact Emits.emit _

mutual
theorem serialize_emits : (s : SVal) → Emits s.serialize (to_bytes s)
  | .bool _ | .i8 _ | .i16 _ | .i32 _ | .i64 _ | .i128 _ | .u8 _ | .u16 _ | .u32 _ | .u64 _
  | .u128 _ | .f32 _ | .f64 _ | .char _ | .str _ | .bytes _ | .none | .unit | .unitStruct _
  | .unitVariant _ _ _ | .fail _ | .panic _ => by
    rw [to_bytes_eq]
    refine (Emits.node _ ?_ ?_ ?_ ?_).self <;> simp
  | .some v | .newtypeStruct _ v | .newtypeVariant _ _ _ v => by
    have := serialize_emits v
    rw [to_bytes_eq]
    refine (Emits.node _ ?_ ?_ ?_ ?_).self <;> simp
    · exact this
  | .seq _ es | .tuple _ es | .tupleStruct _ _ es | .tupleVariant _ _ _ _ es => by
    have := serializeList_emits es
    rw [to_bytes_eq]
    refine (Emits.node _ ?_ ?_ ?_ ?_).self <;> simp
    · exact this
  | .map _ es => by
    have := serializeEntries_emits es
    rw [to_bytes_eq]
    refine (Emits.node _ ?_ ?_ ?_ ?_).self <;> simp
    · exact fun a b => this (a, b)
  | .struct _ _ fs | .structVariant _ _ _ _ fs => by
    have := serializeFields_emits fs
    rw [to_bytes_eq]
    refine (Emits.node _ ?_ ?_ ?_ ?_).self <;> simp
    · exact fun a b => this (a, b)

theorem serializeList_emits : (es : List SVal) → ∀ e ∈ es, Emits e.serialize (to_bytes e)
  | [] => by simp
  | x :: xs => by
    intro e he
    rcases List.mem_cons.mp he with h | h
    · rw [h]; exact serialize_emits x
    · exact serializeList_emits xs e h

theorem serializeEntries_emits : (es : List (SVal × SVal)) →
    ∀ e ∈ es, Emits e.1.serialize (to_bytes e.1) ∧ Emits e.2.serialize (to_bytes e.2)
  | [] => by simp
  | (k, v) :: xs => by
    intro e he
    rcases List.mem_cons.mp he with h | h
    · rw [h]; exact ⟨serialize_emits k, serialize_emits v⟩
    · exact serializeEntries_emits xs e h

theorem serializeFields_emits : (fs : List (String × SVal)) →
    ∀ e ∈ fs, Emits e.2.serialize (to_bytes e.2)
  | [] => by simp
  | (k, v) :: xs => by
    intro e he
    rcases List.mem_cons.mp he with h | h
    · rw [h]; exact serialize_emits v
    · exact serializeFields_emits xs e h
end

/-- `to_bytes` by cases on the top call. -/
theorem to_bytes_node (s : SVal) : to_bytes s = nodeBytes s :=
  (serialize_emits s).unique
    (Emits.node s (fun v _ => serialize_emits v) (fun es _ => serializeList_emits es)
      (fun es _ => serializeEntries_emits es) (fun fs _ => serializeFields_emits fs))

@[simp] theorem bytesList_nil : bytesList [] = .ok [] := rfl
@[simp] theorem bytesList_cons (s : SVal) (ss : List SVal) :
    bytesList (s :: ss) = (to_bytes s).cat (bytesList ss) := rfl

end Xdr
