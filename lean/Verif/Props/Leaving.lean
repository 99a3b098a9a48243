import Verif.Proofs.Leaving
import Verif.Model.Types
import Verif.Props.Sample
/-!
# Property C82: implementations that catch the error of a part and write on

serde takes the serializer by value, but `serialize_element`, `serialize_field`, `serialize_key` and
`serialize_value` only borrow it, and the result of these can be caught; since `serialize_tuple` writes nothing, any
call can be made an element.
-/

namespace Xdr

/-- C82. The model that keeps the output extends the other one: every call tree is one of these implementations,
and `to_bytes` sees no difference. -/
theorem C82_same (v : SVal) : Written v.serializeK ∧ v.serializeK.forget = v.serialize ∧
    to_bytesK v.serializeK = to_bytes v :=
  ⟨v.written, v.forget_serializeK, to_bytesK_forget v⟩

/-- C82. Whatever an implementation does and whatever it catches, what was written before stays, whole words are
added, and neither its result nor what it adds depends on what was written. -/
theorem C82_appends {α : Type} (k : K α) (hk : Written k) : ∃ (r : Res α) (w : Bytes), 4 ∣ w.length ∧
    ∀ out, k out = (r, out ++ w) := by
  obtain ⟨w, hw, h⟩ := hk.appends []
  exact ⟨(k []).1, w, hw, fun out => by have := h out; rwa [List.append_nil, List.nil_append] at this⟩

/-- C82. So every message has a length that is a multiple of four, whatever was caught. -/
theorem C82_words (k : K Unit) (hk : Written k) (b : Bytes) (h : to_bytesK k = .ok b) : 4 ∣ b.length := by
  obtain ⟨r, w, hw, h'⟩ := C82_appends k hk
  rw [to_bytesK, h'] at h
  cases r <;> cases h
  exact hw

/-- C82. What a value leaves in the message: all of it if it can be written; otherwise exactly the encodings of the
calls before the first that fails, and the failure is that of this call. -/
theorem C82_left (v : SVal) (out : Bytes) :
    (∃ bs : List Bytes, v.parts.map to_bytes = bs.map Res.ok ∧ v.serializeK out = (.ok (), out ++ bs.flatten)) ∨
    ∃ (done : List SVal) (p : SVal) (rest : List SVal) (bs : List Bytes), v.parts = done ++ p :: rest ∧
      done.map to_bytes = bs.map Res.ok ∧
      ((∃ e, to_bytes p = .err e ∧ v.serializeK out = (.err e, out ++ bs.flatten)) ∨
        ∃ x, to_bytes p = .panic x ∧ v.serializeK out = (.panic x, out ++ bs.flatten)) := by
  rw [v.runs_parts]
  exact runParts_left v.parts v.parts_sharp out

/-- `if seq.serialize_element(&v).is_err() { seq.serialize_element(&w)? }`. -/
def orElse (v w : K Unit) : K Unit := do
  match ← K.attempt v with
  | .ok _ => pure ()
  | .error _ => w

theorem orElse_written {v w : K Unit} (hv : Written v) (hw : Written w) : Written (orElse v w) :=
  .bind (.attempt hv) fun r => by
    cases r with
    | ok _ => exact .pure _
    | error _ => exact hw

theorem orElse_ok {v w : K Unit} {out out' : Bytes} (h : v out = (.ok (), out')) :
    orElse v w out = (.ok (), out') := by
  rw [orElse, K.bind_def, K.attempt, h]
  rfl

theorem orElse_err {v w : K Unit} {out out' : Bytes} {e : Error} (h : v out = (.err e, out')) :
    orElse v w out = w out' := by
  rw [orElse, K.bind_def, K.attempt, h]

theorem ok_map_inj {as bs : List Bytes} (h : as.map Res.ok = bs.map Res.ok) : as = bs := by
  induction as generalizing bs with
  | nil => cases bs <;> cases h; rfl
  | cons a as ih =>
    cases bs with
    | nil => cases h
    | cons b bs =>
      simp only [List.map_cons, List.cons.injEq, Res.ok.injEq] at h
      rw [h.1, ih h.2]

/-- C82. Writing `w` when `v` cannot be written gives what `w` alone gives, exactly when the calls of `v` before the
one that fails write nothing. What is missing: the values that fail later. -/
theorem C82_instead_partial {v w : SVal} {e : Error} {b : Bytes} (hv : to_bytes v = .err e) (hw : to_bytes w = .ok b) :
    to_bytesK (orElse v.serializeK w.serializeK) = .ok b ↔
      ∃ (done : List SVal) (p : SVal) (rest : List SVal), v.parts = done ++ p :: rest ∧
        (∀ q ∈ done, to_bytes q = .ok []) ∧ to_bytes p = .err e := by
  have hwk : ∀ out, w.serializeK out = (.ok (), out ++ b) := by
    obtain ⟨r, x, _, h⟩ := C82_appends _ w.written
    intro out
    have h2 := to_bytesK_forget w
    rw [hw, to_bytesK, h] at h2
    cases r <;> cases h2
    exact h out
  have hvk : to_bytesK v.serializeK = .err e := by rw [to_bytesK_forget, hv]
  rcases C82_left v [] with ⟨bs, _, h2⟩ | ⟨done, p, rest, bs, h1, h2, ⟨e', hp, h3⟩ | ⟨x, hp, h3⟩⟩
  · rw [to_bytesK, h2] at hvk
    cases hvk
  · rw [to_bytesK, h3] at hvk
    cases hvk
    have hr : to_bytesK (orElse v.serializeK w.serializeK) = .ok (bs.flatten ++ b) := by
      rw [to_bytesK, orElse_err h3, hwk]
      simp
    rw [hr]
    constructor
    · intro h
      have hn : bs.flatten = [] := by
        have := congrArg List.length (Res.ok.inj h)
        rw [List.length_append] at this
        exact List.length_eq_zero_iff.mp (by omega)
      refine ⟨done, p, rest, h1, fun q hq => ?_, hp⟩
      have : to_bytes q ∈ bs.map Res.ok := h2 ▸ List.mem_map_of_mem hq
      obtain ⟨b', hb', hq'⟩ := List.mem_map.mp this
      rw [← hq', List.flatten_eq_nil_iff.mp hn b' hb']
    · rintro ⟨done', p', rest', h1', h2', h3'⟩
      have hd : done = done' := by
        have hle : ∀ {d d' r r' : List SVal} {q q' : SVal} {cs : List Bytes}, d ++ q :: r = d' ++ q' :: r' →
            d.map to_bytes = cs.map Res.ok → to_bytes q' = .err e → d.length ≤ d'.length := by
          intro d d' r r' q q' cs heq hok herr
          refine Nat.le_of_not_lt fun hlt => ?_
          have hm : q' ∈ d := by
            have h5 := congrArg (·[d'.length]?) heq
            simp only [List.getElem?_append_right (Nat.le_refl _), Nat.sub_self, List.getElem?_cons_zero] at h5
            rw [List.getElem?_append_left (by omega)] at h5
            exact List.mem_of_getElem? h5
          have : to_bytes q' ∈ cs.map Res.ok := hok ▸ List.mem_map_of_mem hm
          obtain ⟨_, _, h6⟩ := List.mem_map.mp this
          rw [herr] at h6
          cases h6
        have heq := h1.symm.trans h1'
        have hok' : done'.map to_bytes = (done'.map fun _ => ([] : Bytes)).map Res.ok := by
          rw [List.map_map]
          exact List.map_congr_left h2'
        exact (List.append_inj heq (Nat.le_antisymm (hle heq h2 h3') (hle heq.symm hok' hp))).1
      subst hd
      have : bs.map Res.ok = (done.map fun _ => ([] : Bytes)).map Res.ok := by
        rw [← h2, List.map_map]
        exact List.map_congr_left h2'
      rw [ok_map_inj this]
      simp
  · rw [to_bytesK, h3] at hvk
    cases hvk

/-- A pair whose second part fails, as serde's impl for a poisoned `Mutex` does. -/
def poisoned : SVal := .tuple 2 [.u32 7, .fail "lock poisoned while serializing"]

/-- C82 fails: an implementation that writes `Some(pair)` or, when that is not possible, `None`, writes a message
that is read as `Some((7, 0))`, without an error. -/
theorem C82_option_violated : Written (orElse (SVal.some poisoned).serializeK SVal.none.serializeK) ∧
    to_bytes (.some poisoned) = .err (.custom "lock poisoned while serializing") ∧
    to_bytes .none = .ok [0, 0, 0, 0] ∧
    to_bytesK (orElse (SVal.some poisoned).serializeK SVal.none.serializeK) =
      .ok [0, 0, 0, 1, 0, 0, 0, 7, 0, 0, 0, 0] ∧
    fromBytes Sample.env 9 (.option (.tuple [.u32, .u32])) [0, 0, 0, 1, 0, 0, 0, 7, 0, 0, 0, 0] =
      .ok (.some (.seq [.u32 7, .u32 0])) :=
  ⟨orElse_written (SVal.written _) (SVal.written _), by decide +kernel, by decide +kernel, by decide +kernel, by rfl⟩

/-- The condition of `C82_instead_partial` is met by a value that fails at its first number: here a 128-bit one
in a list of fields after a unit. -/
example : to_bytesK (orElse (SVal.tuple 2 [.unit, .u128 5]).serializeK (SVal.u32 5).serializeK) =
    .ok [0, 0, 0, 5] :=
  (C82_instead_partial (e := .custom "u128 is not supported") (by decide +kernel) (by decide +kernel)).2
    ⟨[.unit], .u128 5, [], rfl, by simp only [List.forall_mem_singleton]; decide +kernel, by decide +kernel⟩

example : poisoned.parts = [.u32 7, .fail "lock poisoned while serializing"] := rfl

end Xdr
