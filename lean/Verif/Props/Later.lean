import Verif.Proofs.Later
import Verif.Props.Decoding
/-!
# C78: later versions of the types of a program; C32, larger stacks

`Later env env'` (`Spec/Later.lean`): the definitions `env'` are a later version of `env`.
-/

namespace Xdr

theorem from_bytes_settled {α : Type} {full : Bool} {d d' : De α} (h : Keeps full d d') {b : Bytes}
    (hs : (d b).Settled full) : from_bytes d' b = from_bytes d b := by
  unfold from_bytes
  rw [h b hs]

theorem from_bytes_cases {α : Type} (d : De α) (b : Bytes) :
    (∃ p, d b = .ok p) ∨ (∃ e, d b = .err e ∧ from_bytes d b = .err e) ∨
    (∃ p, d b = .panic p ∧ from_bytes d b = .panic p) ∨ (d b = .depth ∧ from_bytes d b = .depth) := by
  unfold from_bytes
  cases h : d b with
  | ok p => exact .inl ⟨p, rfl⟩
  | err e => exact .inr (.inl ⟨e, rfl, rfl⟩)
  | panic p => exact .inr (.inr (.inl ⟨p, rfl, rfl⟩))
  | depth => exact .inr (.inr (.inr ⟨rfl, rfl⟩))

/-- C32: an answer does not depend on the stack: what `from_bytes` does without overflowing the stack,
be it a value, an error or a panic, it does on every larger stack. -/
theorem C32_stack (env : Env) (t : Ty) (b : Bytes) (n n' : Nat) (hn : n ≤ n')
    (h : fromBytes env n t b ≠ .depth) : fromBytes env n' t b = fromBytes env n t b := by
  refine from_bytes_settled (keeps_stack env hn t) ?_
  rcases from_bytes_cases (deTy env n t) b with ⟨p, hp⟩ | ⟨e, he, _⟩ | ⟨p, hp, _⟩ | ⟨_, hd⟩
  · rw [hp]; trivial
  · rw [he]; cases e <;> first | trivial | rfl
  · rw [hp]; rfl
  · exact absurd hd h

example (n : Nat) (hn : 6 ≤ n) : fromBytes Sample.env n Sample.ty (Sample.bytes.take 19) =
    .panic .paddingSlice := by
  have h : fromBytes Sample.env 6 Sample.ty (Sample.bytes.take 19) = .panic .paddingSlice := rfl
  rw [C32_stack _ _ _ 6 n hn (by rw [h]; simp), h]

namespace Sample

/-- A later version of the sample program: other names, other kinds of structs and variants, further
variants and a further definition. -/
def later : Env := fun name =>
  if name = "Entry" then some (.tupleStruct [.string, .option (.named "Entry")])
  else if name = "Color" then
    some (.enum [("Rouge", .unit), ("Tint", .tuple [.vec .u16]),
      ("Mix", .struct [("a", .u8), ("b", .i64)]), ("Clear", .newtype (.named "New"))])
  else if name = "Ix" then
    some (.indexer ([("A", none), ("B", some [.u32, .bytes])] ++ [("C", some [.bool])])
      { index := fun i _ => .ok (if i = 0 then -3 else if i = 1 then 9 else 10)
        name_by_index := fun i =>
          if i = -3 then .ok "A" else if i = 9 then .ok "B" else if i = 10 then .ok "C"
          else .err .convert })
  else if name = "New" then some (.newtypeStruct .u32)
  else env name

theorem is_later : Later env later := by
  intro name d hd
  unfold later
  split
  · next h =>
    subst h
    cases (Option.some.inj hd : Def.struct _ = d)
    exact ⟨_, rfl, .struct rfl rfl⟩
  split
  · next h =>
    subst h
    cases (Option.some.inj hd : Def.enum _ = d)
    refine ⟨_, rfl, .enum fun i v hv => ?_⟩
    match i, hv with
    | 0, hv => cases hv; exact ⟨_, rfl, rfl⟩
    | 1, hv => cases hv; exact ⟨_, rfl, rfl⟩
    | 2, hv => cases hv; exact ⟨_, rfl, rfl⟩
  split
  · next h =>
    subst h
    cases (Option.some.inj hd : Def.indexer _ _ = d)
    refine ⟨_, rfl, .indexer (fun i hi fields => ?_) fun k name hk => ?_⟩
    · match i, hi with
      | 0, _ => rfl
      | 1, _ => rfl
    · dsimp only at hk ⊢
      split at hk
      · next h => rw [if_pos h]; exact hk
      · next h =>
        rw [if_neg h]
        split at hk
        · next h => rw [if_pos h]; exact hk
        · simp at hk
  split
  · next h =>
    subst h
    exact absurd hd (by simp [env])
  · exact ⟨d, hd, .same d⟩

end Sample

/-- C78: a value of a type is a value of every later version of the type, written as the same bytes. -/
theorem C78_written (env env' : Env) (t : Ty) (v : Val) (hl : Later env env') (h : HasTy env t v) :
    HasTy env' t v ∧ toBytes env' t v = toBytes env t v :=
  toBytes_later hl h

example : toBytes Sample.later Sample.ty Sample.val = .ok Sample.bytes :=
  (C78_written _ _ _ _ Sample.is_later (by unfold HasTy; decide +kernel)).2.trans Sample.toBytes_val

/-- C78: whatever bytes are accepted are accepted by every later version, with the same value. -/
theorem C78_read (env env' : Env) (n : Nat) (t : Ty) (b : Bytes) (v : Val) (hl : Later env env')
    (h : fromBytes env n t b = .ok v) : fromBytes env' n t b = .ok v := by
  have hok := from_bytes_eq_ok h
  rw [← h]
  exact from_bytes_settled (keeps_env hl (Nat.le_refl n) t) (by rw [hok]; trivial)

example : fromBytes Sample.later 6 Sample.ty Sample.bytes = .ok Sample.val :=
  C78_read _ _ _ _ _ _ Sample.is_later
    (C01_roundtrip _ _ _ _ _ Sample.fits_val (by decide +kernel) Sample.toBytes_val)

/-- C78: what is refused for its bytes, and not for a number without a variant, is refused by every
later version, with the same error. -/
theorem C78_errors (env env' : Env) (n : Nat) (t : Ty) (b : Bytes) (e : Error) (hl : Later env env')
    (h : fromBytes env n t b = .err e) (he : ∀ m, e ≠ .custom m) : fromBytes env' n t b = .err e := by
  rw [← h]
  refine from_bytes_settled (keeps_env hl (Nat.le_refl n) t) ?_
  rcases from_bytes_cases (deTy env n t) b with ⟨p, hp⟩ | ⟨e', hd, hf⟩ | ⟨p, _, hf⟩ | ⟨_, hf⟩
  · rw [hp]; trivial
  · unfold fromBytes at h
    rw [hf] at h
    cases h
    rw [hd]
    cases e with
    | custom m => exact absurd rfl (he m)
    | _ => trivial
  · unfold fromBytes at h; rw [hf] at h; simp at h
  · unfold fromBytes at h; rw [hf] at h; simp at h

example : fromBytes Sample.later 6 Sample.ty (Sample.bytes.take 21) = .err (.notEnoughData 3) :=
  C78_errors _ _ _ _ _ _ Sample.is_later rfl (by simp)

/-- C78: the other way round, a program that reads what a later version has written never takes it for
another value: it returns the value that was written, or a custom error, or a panic of a derived impl
or the stack. -/
theorem C78_never_misread (env env' : Env) (n : Nat) (t : Ty) (b : Bytes) (v : Val)
    (hl : Later env env') (hfits : Fits env' t v) (h : toBytes env' t v = .ok b) :
    fromBytes env n t b = .ok v ∨ (∃ m, fromBytes env n t b = .err (.custom m)) ∨
    (∃ p, fromBytes env n t b = .panic p) ∨ fromBytes env n t b = .depth := by
  have hbig : fromBytes env' (n + (v.depth + 1)) t b = .ok v :=
    C01_roundtrip env' t v b _ hfits (by omega) h
  have up : ∀ r : Res Val, r ≠ .depth → fromBytes env' n t b = r → r = .ok v := by
    intro r hr hf
    rw [← hbig, C32_stack env' t b n _ (by omega) (by rw [hf]; exact hr), hf]
  cases hr : fromBytes env n t b with
  | ok w =>
    have := up _ (by simp) (C78_read env env' n t b w hl hr)
    exact .inl this
  | err e =>
    cases e with
    | custom m => exact .inr (.inl ⟨m, rfl⟩)
    | _ =>
      have := up _ (by simp) (C78_errors env env' n t b _ hl hr (by simp))
      simp at this
  | panic p => exact .inr (.inr (.inl ⟨p, rfl⟩))
  | depth => exact .inr (.inr (.inr rfl))

/-- A value of the later version only: the earlier one refuses it. -/
example : toBytes Sample.later (.vec (.named "Color")) (.seq [.variant 0 [], .variant 3 [.seq [.u32 7]]]) =
      .ok [0, 0, 0, 2, 0, 0, 0, 0, 0, 0, 0, 3, 0, 0, 0, 7] ∧
    fromBytes Sample.env 9 (.vec (.named "Color")) [0, 0, 0, 2, 0, 0, 0, 0, 0, 0, 0, 3, 0, 0, 0, 7] =
      .err (.custom "invalid value: integer `3`, expected variant index 0 <= i < 3") :=
  ⟨by decide +kernel, rfl⟩

example (n : Nat) : fromBytes Sample.env n (.vec (.named "Color")) [0, 0, 0, 1, 0, 0, 0, 0] =
      .ok (.seq [.variant 0 []]) ∨
    (∃ m, fromBytes Sample.env n (.vec (.named "Color")) [0, 0, 0, 1, 0, 0, 0, 0] = .err (.custom m)) ∨
    (∃ p, fromBytes Sample.env n (.vec (.named "Color")) [0, 0, 0, 1, 0, 0, 0, 0] = .panic p) ∨
    fromBytes Sample.env n (.vec (.named "Color")) [0, 0, 0, 1, 0, 0, 0, 0] = .depth :=
  C78_never_misread _ _ _ _ _ _ Sample.is_later (by simp [Fits, FitsAll, Sample.later])
    (by decide +kernel)

/-- C78: a variant that a later version has added to a derived enum is refused, with its number. -/
theorem C78_added (env env' : Env) (n : Nat) (name : String) (vs vs' : List (String × Shape))
    (i : Nat) (ws : List Val) (b : Bytes)
    (he : env name = some (.enum vs)) (he' : env' name = some (.enum vs'))
    (hi : vs.length ≤ i) (hi' : i < 2 ^ 32)
    (h : toBytes env' (.named name) (.variant i ws) = .ok b) :
    fromBytes env (n + 1) (.named name) b = .err (.custom
      s!"invalid value: integer `{i}`, expected variant index 0 <= i < {vs.length}") := by
  unfold toBytes at h
  cases hs : present env' (.named name) (.variant i ws) with
  | none => rw [hs] at h; simp at h
  | some s =>
    rw [hs] at h
    have hidx : ∃ r, to_bytes s = (indexBytes (UInt32.ofNat i)).cat r := by
      rw [to_bytes_node]
      cases present_sound _ _ _ _ hs with
      | enumUnit _ _ => exact ⟨.ok [], by simp [nodeBytes]⟩
      | enumNewtype _ _ _ => exact ⟨_, rfl⟩
      | enumTuple _ _ _ => exact ⟨_, rfl⟩
      | enumStruct _ _ _ => exact ⟨_, rfl⟩
      | indexerUnit he _ => rw [he'] at he; simp at he
      | indexer he _ _ => rw [he'] at he; simp at he
      | unionUnit he _ => rw [he'] at he; simp at he
      | union he _ _ => rw [he'] at he; simp at he
    obtain ⟨r, hr⟩ := hidx
    simp only at h
    rw [hr] at h
    obtain ⟨b1, b2, h1, _, rfl⟩ := Res.cat_eq_ok h
    have hread := (index_reads hi' h1).2 (variantIndex vs.length) b2
    have : deTy env (n + 1) (.named name) (b1 ++ b2) = .err (.custom
        s!"invalid value: integer `{i}`, expected variant index 0 <= i < {vs.length}") := by
      simp only [deTy, he]
      rw [deDef_enum]
      refine M.bind_err ?_
      rw [hread, variantIndex, if_neg (by omega)]
      rfl
    unfold fromBytes from_bytes
    rw [this]

example (n : Nat) : fromBytes Sample.env (n + 1) (.named "Color") [0, 0, 0, 3, 0, 0, 0, 7] =
    .err (.custom "invalid value: integer `3`, expected variant index 0 <= i < 3") :=
  C78_added Sample.env Sample.later n "Color" _ _ 3 [.seq [.u32 7]] _ rfl rfl (by decide) (by decide)
    (by decide +kernel)

/-- C78: fields that are added to the end of a struct. What is written for the longer struct is what
is written for the shorter one, and the new fields after it. The reader of the shorter struct reports
those as trailing data, and the reader of the longer one does not accept what lacks them. -/
theorem C78_fields (env : Env) (n : Nat) (old new : String) (d d' : Def) (ts us : List Ty)
    (vs ws : List Val) (b : Bytes)
    (he : env old = some d) (hd : d.fields = some ts)
    (he' : env new = some d') (hd' : d'.fields = some (ts ++ us)) (hlen : vs.length = ts.length)
    (hfits : Fits env (.named new) (.seq (vs ++ ws))) (hdepth : (Val.seq (vs ++ ws)).depth < n)
    (h : toBytes env (.named new) (.seq (vs ++ ws)) = .ok b) :
    ∃ b₁ b₂, b = b₁ ++ b₂ ∧ toBytes env (.named old) (.seq vs) = .ok b₁ ∧
      fromBytes env n (.named old) b =
        (if b₂ = [] then .ok (.seq vs) else .err (.trailingData b₂.length)) ∧
      (b₂ ≠ [] → ∀ v, fromBytes env n (.named new) b₁ ≠ .ok v) := by
  have hroundNew := C01_roundtrip env (.named new) (.seq (vs ++ ws)) b n hfits hdepth h
  unfold toBytes at h
  cases hs : present env (.named new) (.seq (vs ++ ws)) with
  | none => rw [hs] at h; simp at h
  | some s =>
    rw [hs] at h
    simp only at h
    obtain ⟨ss, hp, hb⟩ := pres_fields he' hd' (present_sound _ _ _ _ hs)
    have hlen' : (vs ++ ws).length = (ts ++ us).length := hp.length.1.symm
    rw [hb] at h
    obtain ⟨s₁, s₂, rfl, hp1, _⟩ := hp.split hlen
    rw [bytesList_append] at h
    obtain ⟨b₁, b₂, h1, h2, rfl⟩ := Res.cat_eq_ok h
    obtain ⟨s', hs', hb'⟩ := pres_ofFields he hd hp1
    have hold : toBytes env (.named old) (.seq vs) = .ok b₁ := by
      unfold toBytes
      rw [hs'.complete]
      simp only
      rw [hb', h1]
    have hfold : Fits env (.named old) (.seq vs) :=
      (fits_fields he hd hlen).mpr (((fits_fields he' hd' hlen').mp hfits).split hlen)
    have hdold : (Val.seq vs).depth < n := by
      have := depthList_append vs ws
      simp only [Val.depth] at hdepth ⊢
      omega
    refine ⟨b₁, b₂, rfl, hold, from_bytes_ok (roundtrip hold hfold hdold b₂), fun hne v hv => ?_⟩
    rcases C06_truncated_types env n (.named new) b₁ b₂ _ hne hroundNew with ⟨k, _, _, hk⟩ | ⟨hk, _⟩
    · rw [hk] at hv; simp at hv
    · rw [hk] at hv; simp at hv

/-- Two versions of a struct. -/
def Sample.versions : Env := fun name =>
  if name = "Old" then some (.struct [("id", .u32)])
  else if name = "New" then some (.struct [("id", .u32), ("note", .option .bool)])
  else none

example : fromBytes Sample.versions 5 (.named "Old") [0, 0, 0, 7, 0, 0, 0, 1, 0, 0, 0, 1] =
      .err (.trailingData 8) ∧
    fromBytes Sample.versions 5 (.named "New") [0, 0, 0, 7] = .err (.notEnoughData 4) := by
  obtain ⟨b₁, b₂, hb, h1, h2, _⟩ := C78_fields Sample.versions 5 "Old" "New" _ _ [.u32] [.option .bool]
    [.u32 7] [.some (.bool true)] [0, 0, 0, 7, 0, 0, 0, 1, 0, 0, 0, 1] rfl rfl rfl rfl rfl
    (by simp [Fits, FitsEach, Sample.versions]) (by decide +kernel) (by decide +kernel)
  have h1' : toBytes Sample.versions (.named "Old") (.seq [.u32 7]) = .ok [0, 0, 0, 7] := by
    decide +kernel
  rw [h1'] at h1
  cases h1
  simp only [List.cons_append, List.nil_append, List.cons.injEq, true_and] at hb
  subst hb
  exact ⟨h2, rfl⟩

end Xdr
