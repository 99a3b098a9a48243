import Verif.Proofs.Form
import Verif.Props.Normal
/-!
# C84: exactly which bytes are accepted

`Wire.Form` (`Verif/Spec/Form.lean`) is the table of all inputs that are taken for a value. -/

namespace Xdr

/-- C84: `from_bytes` returns a value for exactly the inputs the table lists for it, for every type,
whatever the hand-written conversions do. `n` is the stack, of which enough must be there. -/
theorem C84_accepted (env : Env) (t : Ty) (v : Val) (b : Bytes) :
    (∃ n, fromBytes env n t b = .ok v) ↔ Wire.Form env t v b := by
  constructor
  · rintro ⟨n, h⟩
    obtain ⟨bs, e, f⟩ := Wire.form_of_read env n t b v [] (from_bytes_eq_ok h)
    rw [List.append_nil] at e
    rwa [e]
  · intro f
    obtain ⟨n, h⟩ := Wire.reads_of_form f
    refine ⟨n, ?_⟩
    have h0 := h []
    rw [List.append_nil] at h0
    unfold fromBytes
    rw [from_bytes_ok h0, if_pos rfl]

/-- C84 for a value inside a message: a reader takes a value off the front of its input for exactly
the inputs that begin with something the table lists, and leaves the rest. -/
theorem C84_front (env : Env) (t : Ty) (v : Val) (input rest : Bytes) :
    (∃ n, deTy env n t input = .ok (v, rest)) ↔
      ∃ bs, input = bs ++ rest ∧ Wire.Form env t v bs := by
  constructor
  · rintro ⟨n, h⟩
    exact Wire.form_of_read env n t input v rest h
  · rintro ⟨bs, rfl, f⟩
    obtain ⟨n, h⟩ := Wire.reads_of_form f
    exact ⟨n, h rest⟩

/-- C84: no input is listed for two values, nor is the beginning of a listed input listed itself. -/
theorem C84_unambiguous (env : Env) (t : Ty) (v w : Val) (b extra : Bytes)
    (hv : Wire.Form env t v b) (hw : Wire.Form env t w (b ++ extra)) : extra = [] ∧ v = w := by
  obtain ⟨n, h⟩ := Wire.reads_of_form hv
  obtain ⟨m, h'⟩ := Wire.reads_of_form hw
  have h1 := Wire.Reads_mono h (Nat.le_max_left n m) extra
  have h2 := Wire.Reads_mono h' (Nat.le_max_right n m) []
  rw [List.append_nil] at h2
  rw [h1] at h2
  simp only [Res.ok.injEq, Prod.mk.injEq] at h2
  exact ⟨h2.2, h2.1⟩

/-- C84: what `to_bytes` writes is listed, wherever it can be read back at all (`Fits`, as in C01). -/
theorem C84_written (env : Env) (t : Ty) (v : Val) (b : Bytes) (hf : Fits env t v)
    (h : toBytes env t v = .ok b) : Wire.Form env t v b :=
  (C84_accepted env t v b).mp ⟨v.depth + 1, C01_roundtrip env t v b _ hf (by omega) h⟩

/-- C84: without maps, all the inputs listed for a value have one length, that of its encoding, if
the conversions a user wrote belong to each other. -/
theorem C84_one_length (env : Env) (henv : EnvConsistent env false) (t : Ty)
    (ht : t.Consistent env false) (v : Val) (b : Bytes) (hf : Wire.Form env t v b) :
    ∃ bs, toBytes env t v = .ok bs ∧ bs.length = b.length := by
  obtain ⟨n, h⟩ := (C84_accepted env t v b).mpr hf
  obtain ⟨_, bs, h1, h2, _⟩ := C09_normalisation env henv t ht n b v h
  exact ⟨bs, h1, h2⟩

/-- An input no encoder writes (flag 7, padding that is not zero, a word too large for a `u8`, a
number the user's code knows) is listed, by the table alone. -/
theorem Sample.form_odd : Wire.Form Sample.env (.tuple [.option .bytes, .u8, .named "Ix"])
    (.seq [.some (.bytes [1]), .u8 3, .variant 0 []])
    [0, 0, 0, 7, 0, 0, 0, 1, 1, 9, 9, 9, 0, 0, 1, 3, 255, 255, 255, 253] := by
  have h1 : Wire.Form Sample.env (.option .bytes) (.some (.bytes [1]))
      [0, 0, 0, 7, 0, 0, 0, 1, 1, 9, 9, 9] :=
    .some (k := 7) (by omega) (by omega) (.bytes (b := [1]) (p := [9, 9, 9]) (by decide) ⟨by decide, by decide⟩)
  have h2 : Wire.Form Sample.env .u8 (.u8 3) [0, 0, 1, 3] := .u8 (k := 259) (by omega)
  have h3 : Wire.Form Sample.env (.named "Ix") (.variant 0 []) [255, 255, 255, 253] :=
    .indexer (k := 4294967293) (vn := "A") (fs := none) rfl (by omega) rfl
      ⟨rfl, fun j hj => by omega⟩ (by decide) .nil
  exact .tuple (.cons h1 (.cons h2 (.cons h3 .nil)))

example : ∃ n, fromBytes Sample.env n (.tuple [.option .bytes, .u8, .named "Ix"])
    [0, 0, 0, 7, 0, 0, 0, 1, 1, 9, 9, 9, 0, 0, 1, 3, 255, 255, 255, 253] =
    .ok (.seq [.some (.bytes [1]), .u8 3, .variant 0 []]) :=
  (C84_accepted _ _ _ _).mpr Sample.form_odd

/-- Its encoding is as long. -/
example : ∃ bs, toBytes Sample.env (.tuple [.option .bytes, .u8, .named "Ix"])
    (.seq [.some (.bytes [1]), .u8 3, .variant 0 []]) = .ok bs ∧ bs.length = 20 :=
  C84_one_length _ (Sample.consistent _) _ (by simp [Ty.Consistent, ConsistentAll]) _ _ Sample.form_odd

/-- A key given three times and another one in between. -/
example : Wire.Form Sample.env (.map .u8 .bool) (.map [(.u8 7, .bool true), (.u8 1, .bool false)])
    [0, 0, 0, 3, 0, 0, 0, 7, 0, 0, 0, 0, 0, 0, 0, 1, 0, 0, 0, 0, 0, 0, 1, 7, 0, 0, 0, 5] := by
  have hp : Wire.Pairs Sample.env .u8 .bool [(.u8 7, .bool false), (.u8 1, .bool false), (.u8 7, .bool true)]
      [0, 0, 0, 7, 0, 0, 0, 0, 0, 0, 0, 1, 0, 0, 0, 0, 0, 0, 1, 7, 0, 0, 0, 5] :=
    .cons (.u8 (k := 7) (by omega)) (.bool (k := 0) (by omega))
      (.cons (.u8 (k := 1) (by omega)) (.bool (k := 0) (by omega))
        (.cons (.u8 (k := 263) (by omega)) (.bool (k := 5) (by omega)) .nil))
  have hf : Wire.Folded [(.u8 7, .bool false), (.u8 1, .bool false), (.u8 7, .bool true)]
      [(.u8 7, .bool true), (.u8 1, .bool false)] :=
    .again (ps := [(.u8 7, .bool false), (.u8 1, .bool false)]) (es := []) (w := .bool false)
      (.fresh (ps := [(.u8 7, .bool false)]) (es := [(.u8 7, .bool false)])
        (.fresh (ps := []) (es := []) .nil (by simp)) (by simp)) (by simp)
  exact .map (by decide) hp hf

/-- The sample value, as it is written. -/
example : Wire.Form Sample.env Sample.ty Sample.val Sample.bytes :=
  C84_written _ _ _ _ Sample.fits_val Sample.toBytes_val

/-- A position no variant has is listed for no value. -/
example : ¬ ∃ v, Wire.Form Sample.env (.named "Color") v [0, 0, 0, 3] := by
  rintro ⟨v, h⟩
  obtain ⟨n, h⟩ := (C84_accepted _ _ _ _).mpr h
  have hn : 1 ≤ n := by
    cases n with
    | zero => simp [fromBytes, from_bytes, deTy] at h
    | succ n => omega
  have h0 : deTy Sample.env 1 (.named "Color") [0, 0, 0, 3] =
      .err (.custom "invalid value: integer `3`, expected variant index 0 <= i < 3") := by rfl
  have h1 := deTy_refines Sample.env 1 n hn (.named "Color") [0, 0, 0, 3] (by rw [h0]; simp)
  have h2 := from_bytes_eq_ok h
  rw [h1, h0] at h2
  simp at h2

end Xdr
