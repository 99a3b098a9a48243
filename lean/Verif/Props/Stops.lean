import Verif.Proofs.StopsBack
import Verif.Props.Form
import Verif.Props.Panics
import Verif.Props.Resources
/-! # C07, C85: which inputs make it panic, and which it rejects with which error

`Wire.Stops` (`Spec/Stops.lean`) lists them by type. -/

namespace Xdr

theorem panic_from_bytes {α : Type} {d : De α} {input : Bytes} {p : PanicSite}
    (h : d input = .panic p) : from_bytes d input = .panic p := by
  unfold from_bytes; rw [h]

/-- C07, for every type and every input: `from_bytes` panics exactly on the inputs that are listed,
and at the place that is listed. -/
theorem C07_exact (env : Env) (t : Ty) (b : Bytes) (p : PanicSite) :
    (∃ n, fromBytes env n t b = .panic p) ↔ Wire.Stops env t b (.panic p) := by
  constructor
  · rintro ⟨n, h⟩
    exact Wire.stops_of_res env n t b (.panic p) (from_bytes_panic h)
  · intro h
    obtain ⟨n, h⟩ := Wire.gives_up_of_stops h
    exact ⟨n, panic_from_bytes h⟩

/-- C07: where the user's own code does not panic, the padding of a text is the only place. -/
theorem C07_only_padding (env : Env) (t : Ty) (henv : EnvOk env true) (ht : t.Ok env true) (n : Nat)
    (b : Bytes) (p : PanicSite) (h : fromBytes env n t b = .panic p) : p = .paddingSlice :=
  Wire.stops_padding henv ((C07_exact env t b p).mp ⟨n, h⟩) ht p rfl

/-- C85, for every type and every input: `from_bytes` returns exactly the error that is listed, or reports
what is left behind a value. -/
theorem C85_errors (env : Env) (t : Ty) (b : Bytes) (e : Error) :
    (∃ n, fromBytes env n t b = .err e) ↔ Wire.Stops env t b (.err e) ∨
      ∃ v bs extra, b = bs ++ extra ∧ extra ≠ [] ∧ Wire.Form env t v bs ∧ e = .trailingData extra.length := by
  constructor
  · rintro ⟨n, h⟩
    unfold fromBytes from_bytes at h
    cases hd : deTy env n t b with
    | ok x =>
      obtain ⟨v, rest⟩ := x
      simp only [hd] at h
      split at h
      · simp at h
      · rename_i hr
        simp only [Res.err.injEq] at h
        obtain ⟨bs, rfl, f⟩ := Wire.form_of_read env n t b v rest hd
        exact .inr ⟨v, bs, rest, rfl, by simpa using hr, f, h.symm⟩
    | err e' =>
      simp only [hd, Res.err.injEq] at h
      subst h
      exact .inl (Wire.stops_of_res env n t b (.err e') hd)
    | panic p => simp [hd] at h
    | depth => simp [hd] at h
  · rintro (h | ⟨v, bs, extra, rfl, hne, f, rfl⟩)
    · obtain ⟨n, h⟩ := Wire.gives_up_of_stops h
      refine ⟨n, ?_⟩
      unfold fromBytes from_bytes
      rw [h]
      rfl
    · obtain ⟨n, h⟩ := Wire.reads_of_form f
      refine ⟨n, ?_⟩
      unfold fromBytes from_bytes
      rw [h extra]
      simp [hne]

/-- C85: an input that is accepted, or begins with one that is, is not listed. -/
theorem C85_not_both (env : Env) (t : Ty) (v : Val) (b extra : Bytes) (o : Wire.Stop)
    (hf : Wire.Form env t v b) : ¬ Wire.Stops env t (b ++ extra) o := by
  intro hb
  obtain ⟨n, h⟩ := Wire.reads_of_form hf
  obtain ⟨m, h'⟩ := Wire.gives_up_of_stops hb
  have h1 := Wire.Reads_mono h (Nat.le_max_left n m) extra
  have h2 := Wire.stop_mono h' (Nat.le_max_right n m)
  rw [h1] at h2
  simp at h2

/-- C85: no input is listed twice. -/
theorem C85_once (env : Env) (t : Ty) (b : Bytes) (o o' : Wire.Stop)
    (h : Wire.Stops env t b o) (h' : Wire.Stops env t b o') : o = o' := by
  obtain ⟨n, h⟩ := Wire.gives_up_of_stops h
  obtain ⟨m, h'⟩ := Wire.gives_up_of_stops h'
  have h1 := Wire.stop_mono h (Nat.le_max_left n m)
  have h2 := Wire.stop_mono h' (Nat.le_max_right n m)
  rw [h1] at h2
  cases o <;> cases o' <;> simp_all [Wire.Stop.res]

/-- C85: nothing is missing. Every input begins with one that is accepted (C84) or is listed, if no type
contains itself without reading anything in between and the user's own code returns (as in C32). -/
theorem C85_every_input (defs : List (String × Def)) (t : Ty)
    (hguarded : ∀ x, ¬ Relation.TransGen (Refers (program defs)) x x)
    (hdisc : ∀ x disc vars impl, (x, Def.union disc vars impl) ∈ defs → Sized (program defs) disc)
    (hreturns : ∀ d ∈ defs, d.2.Returns) (ht : t.Returns) (b : Bytes) :
    (∃ v bs extra, b = bs ++ extra ∧ Wire.Form (program defs) t v bs) ∨
      ∃ o, Wire.Stops (program defs) t b o := by
  obtain ⟨K, hK⟩ := C32_linear_depth defs t hguarded hdisc hreturns ht
  have h := hK b _ (Nat.le_refl _)
  generalize K * (b.length / 4 + 1) = n at h
  unfold fromBytes from_bytes at h
  cases hd : deTy (program defs) n t b with
  | ok x =>
    obtain ⟨v, rest⟩ := x
    obtain ⟨bs, rfl, f⟩ := Wire.form_of_read _ n t b v rest hd
    exact .inl ⟨v, bs, rest, rfl, f⟩
  | err e => exact .inr ⟨_, Wire.stops_of_res _ n t b (.err e) hd⟩
  | panic p => exact .inr ⟨_, Wire.stops_of_res _ n t b (.panic p) hd⟩
  | depth => simp [hd] at h

/-- A list of options of texts, its second text cut within its padding. -/
theorem Sample.stops : Wire.Stops Sample.env (.vec (.option .string))
    [0, 0, 0, 3, 0, 0, 0, 1, 0, 0, 0, 1, 97, 0, 0, 0, 0, 0, 0, 9, 0, 0, 0, 2, 98, 99, 7]
    (.panic .paddingSlice) := by
  have h1 : Wire.Form Sample.env (.option .string) (.some (.str ['a']))
      [0, 0, 0, 1, 0, 0, 0, 1, 97, 0, 0, 0] :=
    .some (k := 1) (by omega) (by omega) (.string (s := ['a']) (p := [0, 0, 0]) (by decide) ⟨by decide, by decide⟩)
  have h2 : Wire.Stops Sample.env (.option .string) [0, 0, 0, 9, 0, 0, 0, 2, 98, 99, 7] (.panic .paddingSlice) :=
    .some (k := 9) (by omega) (by omega)
      (.string (s := ['b', 'c']) (q := [7]) (by decide) ⟨[0], by simp, by decide, by decide⟩)
  exact .vec (k := 3) (by omega) (.later h1 (.here h2))

example : ∃ n, fromBytes Sample.env n (.vec (.option .string))
    [0, 0, 0, 3, 0, 0, 0, 1, 0, 0, 0, 1, 97, 0, 0, 0, 0, 0, 0, 9, 0, 0, 0, 2, 98, 99, 7] =
      .panic .paddingSlice :=
  (C07_exact _ _ _ _).mpr Sample.stops

example (n : Nat) (b : Bytes) (p : PanicSite) (h : fromBytes Sample.env n Sample.ty b = .panic p) :
    p = .paddingSlice :=
  C07_only_padding _ _ Sample.envOk (by simp [Sample.ty, Ty.Ok, TysOk, Sample.env]) n b p h

/-- An indexer whose one variant has ten members, and one whose user names a variant it lacks. -/
def Sample.tenEnv : Env := fun name =>
  if name = "Ten" then some (.indexer [("A", some (List.replicate 10 .unit))] ⟨fun _ _ => .ok 0, fun _ => .ok "A"⟩)
  else if name = "Lost" then some (.indexer [("A", none)] ⟨fun _ _ => .ok 0, fun _ => .ok "B"⟩)
  else none

example : Wire.Stops Sample.tenEnv (.tuple [.u8, .named "Ten"]) [0, 0, 0, 5, 0, 0, 0, 0, 1] (.panic .unwrapNone) :=
  .tuple (.later (.u8 (k := 5) (by omega)) (.here (.indexerMany (k := 0) (vn := "A") (b := []) (rest := [1])
    (i := 0) (fs := some (List.replicate 10 .unit)) (vs := List.replicate 9 .unit) rfl (by omega) rfl
    ⟨rfl, fun j hj => by omega⟩ (by simp)
    (.cons (bs := []) (cs := []) .unit <| .cons (bs := []) (cs := []) .unit <|
      .cons (bs := []) (cs := []) .unit <| .cons (bs := []) (cs := []) .unit <|
      .cons (bs := []) (cs := []) .unit <| .cons (bs := []) (cs := []) .unit <|
      .cons (bs := []) (cs := []) .unit <| .cons (bs := []) (cs := []) .unit <|
      .cons (bs := []) (cs := []) .unit .nil))))

example : Wire.Stops Sample.tenEnv (.named "Lost") [0, 0, 0, 0] (.panic .unimplemented) :=
  .indexerName (k := 0) (vn := "B") (rest := []) rfl (by omega) rfl (by simp)

/-- What is read whole is not listed. -/
example (o : Wire.Stop) : ¬ Wire.Stops Sample.env Sample.ty (Sample.bytes ++ [1]) o :=
  C85_not_both _ _ _ _ _ _ (C84_written _ _ _ _ Sample.fits_val Sample.toBytes_val)

/-- A text that is not UTF-8 behind one that is, with three bytes missing at the end nobody looks at. -/
theorem Sample.stops_text : Wire.Stops Sample.env (.tuple [.string, .string, .u64])
    [0, 0, 0, 1, 97, 0, 0, 0, 0, 0, 0, 2, 98, 0xE9, 7] (.err (.encoding ⟨1, none⟩)) := by
  have h1 : Wire.Form Sample.env .string (.str ['a']) [0, 0, 0, 1, 97, 0, 0, 0] :=
    .string (s := ['a']) (p := [0, 0, 0]) (by decide) ⟨by decide, by decide⟩
  have h2 : Wire.Stops Sample.env .string [0, 0, 0, 2, 98, 0xE9, 7] (.err (.encoding ⟨1, none⟩)) :=
    .stringFaulty (b := [98, 0xE9]) (rest := [7]) (by decide) (validation_iff.1 (by decide +kernel))
  exact .tuple (.later h1 (.here h2))

example : ∃ n, fromBytes Sample.env n (.tuple [.string, .string, .u64])
    [0, 0, 0, 1, 97, 0, 0, 0, 0, 0, 0, 2, 98, 0xE9, 7] = .err (.encoding ⟨1, none⟩) :=
  (C85_errors _ _ _ _).mpr (.inl Sample.stops_text)

/-- It is the only outcome. -/
example (o : Wire.Stop) (h : Wire.Stops Sample.env (.tuple [.string, .string, .u64])
    [0, 0, 0, 1, 97, 0, 0, 0, 0, 0, 0, 2, 98, 0xE9, 7] o) : o = .err (.encoding ⟨1, none⟩) :=
  C85_once _ _ _ _ _ h Sample.stops_text

/-- Two bytes behind a value. -/
example : ∃ n, fromBytes Sample.env n Sample.ty (Sample.bytes ++ [0, 7]) = .err (.trailingData 2) :=
  (C85_errors _ _ _ _).mpr (.inr ⟨_, _, [0, 7], rfl, by simp,
    C84_written _ _ _ _ Sample.fits_val Sample.toBytes_val, rfl⟩)

/-- A recursive program: all its inputs are in one of the tables. -/
example (b : Bytes) :
    (∃ v bs extra, b = bs ++ extra ∧ Wire.Form (program Sample.defs) (.named "Entry") v bs) ∨
      ∃ o, Wire.Stops (program Sample.defs) (.named "Entry") b o :=
  C85_every_input Sample.defs _ Sample.defs_guarded Sample.defs_disc Sample.defs_returns
    (by simp [Ty.Returns]) b

/-- Errors of enums, of opaque data and of numbers. -/
example : Wire.Stops Sample.env (.named "Color") [0, 0, 0, 3]
      (.err (.custom "invalid value: integer `3`, expected variant index 0 <= i < 3")) ∧
    Wire.Stops Sample.env (.named "Color") [128, 0, 0, 0] (.err .convert) ∧
    Wire.Stops Sample.env .opaqueVar [0, 0, 0, 6, 1, 2, 3, 4, 5] (.err (.notEnoughData 3)) ∧
    Wire.Stops Sample.env .u64 [1, 2, 3] (.err (.notEnoughData 5)) ∧
    Wire.Stops Sample.env (.option .char) [0, 0, 0, 5, 0, 0, 0xD8, 0] (.err .convert) := by
  refine ⟨.enumUnknown (k := 3) (rest := [])
      (vars := [("Red", .unit), ("Tint", .newtype (.vec .u16)), ("Mix", .tuple [.u8, .i64])]) rfl
      (by decide) (by decide),
    .enumNegative (k := 2147483648) (rest := []) rfl (by decide) (by decide),
    .opaqueVar (k := 6) (b := [1, 2, 3, 4, 5]) (by decide) (by decide), .inDword (b := [1, 2, 3]) (by simp) (by decide),
    .some (k := 5) (by omega) (by omega) (.char (k := 0xD800) (rest := []) (by decide) fun c hc => ?_)⟩
  have h1 := c.valid
  have h2 : c.val = 0xD800 := UInt32.toNat_inj.mp hc
  rw [h2] at h1
  revert h1
  decide

end Xdr
