import Verif.Props.TypeSize
import Verif.Proofs.Offsets
/-!
# Property C99: members after members of one size are at fixed offsets

A message can be looked into without decoding what comes first: a header field of a structure, an element of an array.
-/

namespace Xdr

open Wire (TypeSize TypeSizes)

/-- C99: a field of a structure, if the fields before it take `k` bytes. -/
theorem C99_field {env : Env} {name : String} {fs gs : List (String × Ty)} {f : String} {t : Ty}
    (hd : env name = some (.struct (fs ++ (f, t) :: gs))) {k : Nat} (hs : TypeSizes env (fs.map (·.2)) k (some k))
    {n : Nat} {b : Bytes} {v : Val} (h : fromBytes env n (.named name) b = .ok v) :
    ∃ vs w m rest, v = .seq vs ∧ vs[fs.length]? = some w ∧ deTy env m t (b.drop k) = .ok (w, rest) := by
  have hf := (C84_accepted env _ v b).mp ⟨n, h⟩
  cases hf with
  | struct e hf =>
    rw [hd] at e
    cases e
    rw [List.map_append, List.map_cons] at hf
    obtain ⟨w, b', rest, h1, h2, h3⟩ := hf.offset (fun f => hs.forms f)
    obtain ⟨m, h4⟩ := (C84_front env t w (b.drop k) rest).mpr ⟨b', h2, h3⟩
    exact ⟨_, w, m, rest, rfl, by rw [← h1, List.length_map], h4⟩
  | _ => simp_all

/-- C99: a member of a tuple. -/
theorem C99_member {env : Env} {ts us : List Ty} {t : Ty} {k : Nat} (hs : TypeSizes env ts k (some k))
    {n : Nat} {b : Bytes} {v : Val} (h : fromBytes env n (.tuple (ts ++ t :: us)) b = .ok v) :
    ∃ vs w m rest, v = .seq vs ∧ vs[ts.length]? = some w ∧ deTy env m t (b.drop k) = .ok (w, rest) := by
  have hf := (C84_accepted env _ v b).mp ⟨n, h⟩
  cases hf with
  | tuple hf =>
    obtain ⟨w, b', rest, h1, h2, h3⟩ := hf.offset (fun f => hs.forms f)
    obtain ⟨m, h4⟩ := (C84_front env t w (b.drop k) rest).mpr ⟨b', h2, h3⟩
    exact ⟨_, w, m, rest, rfl, h1, h4⟩

/-- C99: an element of a `Vec` whose elements take `k` bytes each. -/
theorem C99_vec {env : Env} {t : Ty} {k : Nat} (hs : TypeSize env t k (some k))
    {n : Nat} {b : Bytes} {vs : List Val} (h : fromBytes env n (.vec t) b = .ok (.seq vs))
    {i : Nat} (hi : i < vs.length) :
    ∃ m rest, deTy env m t (b.drop (4 + i * k)) = .ok (vs[i], rest) := by
  have hf := (C84_accepted env _ _ b).mp ⟨n, h⟩
  cases hf with
  | @vec _ c _ bs _ hf =>
    have hc := Wire.length_elements hf
    rw [Wire.replicate_at (show i < c by omega)] at hf
    obtain ⟨w, b', rest, h1, h2, h3⟩ := hf.offset (k := i * k) (fun f => Wire.within_elements (fun f => hs.form f) f)
    rw [List.length_replicate, List.getElem?_eq_getElem hi] at h1
    cases h1
    obtain ⟨m, h4⟩ := (C84_front env t vs[i] (bs.drop (i * k)) rest).mpr ⟨b', h2, h3⟩
    refine ⟨m, rest, ?_⟩
    rw [← List.drop_drop, List.drop_left' (Wire.length_word c)]
    exact h4

/-- C99: an element of an array. -/
theorem C99_array {env : Env} {t : Ty} {c k : Nat} (hs : TypeSize env t k (some k))
    {n : Nat} {b : Bytes} {vs : List Val} (h : fromBytes env n (.array c t) b = .ok (.seq vs))
    {i : Nat} (hi : i < vs.length) :
    ∃ m rest, deTy env m t (b.drop (i * k)) = .ok (vs[i], rest) := by
  have hf := (C84_accepted env _ _ b).mp ⟨n, h⟩
  cases hf with
  | array hf =>
    have hc := Wire.length_elements hf
    rw [Wire.replicate_at (show i < c by omega)] at hf
    obtain ⟨w, b', rest, h1, h2, h3⟩ := hf.offset (k := i * k) (fun f => Wire.within_elements (fun f => hs.form f) f)
    rw [List.length_replicate, List.getElem?_eq_getElem hi] at h1
    cases h1
    obtain ⟨m, h4⟩ := (C84_front env t vs[i] (b.drop (i * k)) rest).mpr ⟨b', h2, h3⟩
    exact ⟨m, rest, h4⟩

/-- C99: the discriminant of a union is at the front, and the code of the user names the variant for it. -/
theorem C99_union {env : Env} {name : String} {disc : Ty} {vars : List (String × Option (List Ty))} {impl : UnionImpl}
    (hd : env name = some (.union disc vars impl)) {n : Nat} {b : Bytes} {v : Val}
    (h : fromBytes env n (.named name) b = .ok v) :
    ∃ i vs vn fs w m rest, v = .variant i vs ∧ vars[i]? = some (vn, fs) ∧ deTy env m disc b = .ok (w, rest) ∧
      impl.name_by_value w = .ok vn ∧ ∀ x, vs.head? = some x → x = w := by
  have hf := (C84_accepted env _ v b).mp ⟨n, h⟩
  cases hf with
  | @union _ vn _ _ _ _ i ts w vs bs cs e f hn hc _ _ =>
    rw [hd] at e
    cases e
    obtain ⟨m, h4⟩ := (C84_front env disc w (bs ++ cs) cs).mpr ⟨bs, rfl, f⟩
    exact ⟨i, w :: vs, vn, _, w, m, cs, rfl, hc.1, h4, hn, fun x hx => by cases hx; rfl⟩
  | @unionUnit _ vn _ _ _ i fs w _ e f hn hc _ =>
    rw [hd] at e
    cases e
    obtain ⟨m, h4⟩ := (C84_front env disc w b []).mpr ⟨b, by simp, f⟩
    exact ⟨i, [], vn, _, w, m, [], rfl, hc.1, h4, hn, nofun⟩
  | _ => simp_all

/-- C99: the word at the front of an enum is the position of the variant. -/
theorem C99_enum {env : Env} {name : String} {vars : List (String × Shape)} (hd : env name = some (.enum vars))
    {n : Nat} {b : Bytes} {v : Val} (h : fromBytes env n (.named name) b = .ok v) :
    ∃ i vs x m rest, v = .variant i vs ∧ vars[i]? = some x ∧ i < 2 ^ 31 ∧
      deTy env m .u32 b = .ok (.u32 (UInt32.ofNat i), rest) := by
  have hf := (C84_accepted env _ v b).mp ⟨n, h⟩
  cases hf with
  | @enum _ vn _ i sh vs bs e hi hx _ =>
    rw [hd] at e
    cases e
    obtain ⟨m, h4⟩ := (C84_front env .u32 (.u32 (UInt32.ofNat i)) (Wire.word i ++ bs) bs).mpr
      ⟨Wire.word i, rfl, .u32 (by omega)⟩
    exact ⟨i, vs, _, m, bs, rfl, hx, hi, h4⟩
  | _ => simp_all

/-! ## Examples -/

/-- Messages of a union and of an enum that are accepted. -/
example : (∃ v, fromBytes Sample.env 6 (.named "Un") [0, 0, 0, 1, 0, 0, 0, 2, 97, 98, 0, 0] = .ok v) ∧
    fromBytes Sample.env 6 (.named "Color") [0, 0, 0, 2, 0, 0, 0, 5, 0, 0, 0, 0, 0, 0, 0, 1] =
      .ok (.variant 2 [.u8 5, .i64 1]) :=
  ⟨⟨_, rfl⟩, rfl⟩

/-- Whatever follows in a message of the union, with 1 in front the variant is the first. -/
example (n : Nat) (rest : Bytes) (v : Val) (h : fromBytes Sample.env n (.named "Un") (0 :: 0 :: 0 :: 1 :: rest) = .ok v) :
    ∃ vs, v = .variant 0 vs := by
  obtain ⟨i, vs, vn, fs, w, m, rest', rfl, hi, hw, hn, -⟩ := C99_union (env := Sample.env) (name := "Un") rfl h
  cases m with
  | zero => cases hw
  | succ m =>
    cases (show Res.ok (Val.i32 1, rest) = .ok (w, rest') from hw)
    cases (show Res.ok "One" = Res.ok vn from hn)
    match i, hi with
    | 0, _ => exact ⟨vs, rfl⟩
    | 1, hi => simp at hi
    | i + 2, hi => simp at hi

/-- A header of a message: transaction number, direction, version, then the rest. -/
def Sample.header : Env := fun name =>
  if name = "Header" then
    some (.struct [("xid", .u32), ("dir", .named "Dir"), ("vers", .u32), ("body", .bytes)])
  else if name = "Dir" then some (.enum [("Call", .unit), ("Reply", .unit)])
  else none

/-- The version of every accepted message is the word at offset 8. -/
example (n : Nat) (b : Bytes) (v : Val) (h : fromBytes Sample.header n (.named "Header") b = .ok v) :
    ∃ vs w m rest, v = .seq vs ∧ vs[2]? = some w ∧ deTy Sample.header m .u32 (b.drop 8) = .ok (w, rest) :=
  C99_field (fs := [("xid", .u32), ("dir", .named "Dir")]) (gs := [("body", .bytes)]) (f := "vers") rfl
    (.cons (lo := 4) (hi := some 4) (.word (by simp)) (.cons (lo := 4) (hi := some 4)
      (.enum (lo := 0) (hi := some 0) rfl (by
        intro x hx
        simp only [List.mem_cons, List.not_mem_nil, or_false] at hx
        rcases hx with rfl | rfl <;> exact .nil)) .nil)) h

/-- There is such a message. -/
example : fromBytes Sample.header 5 (.named "Header") [0, 0, 0, 9, 0, 0, 0, 1, 0, 0, 0, 2, 0, 0, 0, 1, 7, 0, 0, 0] =
    .ok (.seq [.u32 9, .variant 1 [], .u32 2, .bytes [7]]) := by
  rfl

/-- The second of two pairs of numbers is at offset 20. -/
example : ∃ m rest, deTy Sample.env m (.array 2 .i64) (([0, 0, 0, 2, 0, 0, 0, 0, 0, 0, 0, 1, 0, 0, 0, 0, 0, 0, 0, 2,
    0, 0, 0, 0, 0, 0, 0, 3, 0, 0, 0, 0, 0, 0, 0, 4] : Bytes).drop 20) = .ok (.seq [.i64 3, .i64 4], rest) :=
  C99_vec (t := .array 2 .i64) (k := 16) (n := 5) (vs := [.seq [.i64 1, .i64 2], .seq [.i64 3, .i64 4]])
    (.array (n := 2) (.dword (by simp))) rfl (i := 1) (by decide)

end Xdr
