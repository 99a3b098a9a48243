import Verif.Props.Form
import Verif.Proofs.AlikeTyped
/-!
# Property C100: programs whose types have one layout understand each other

Which layouts are the same is said in `Spec/Alike.lean`. A value of the model is the same for a structure, a tuple
structure, a tuple, a newtype and an array with the same members: the list of the members.
-/

namespace Xdr

open Wire (Layout OneKind Plain)

theorem Wire.Plain.symm {t t' : Ty} (h : Plain t t') : Plain t' t := by
  cases h with
  | same h => exact .same h
  | «opaque» h h' => exact .opaque h' h
  | opaqueFixed => exact .opaqueFixed
  | signed32 => exact .signed32

theorem Wire.flip_each {α β : Type} {R : α → β → Prop} {S : β → α → Prop} (h : ∀ a b, R a b → S b a) :
    ∀ {l : List α} {l' : List β}, List.Forall₂ R l l' → List.Forall₂ S l' l
  | _, _, .nil => .nil
  | _, _, .cons r rs => .cons (h _ _ r) (Wire.flip_each h rs)

theorem Wire.Layout.symm {env env' : Env} {B : Ty → Ty → Prop} (h : Layout env env' B) :
    Layout env' env fun t' t => B t t' := by
  intro t' t b
  cases h t t' b with
  | plain p => exact .plain p.symm
  | noContent h1 h2 => exact .noContent h2 h1
  | option b' => exact .option b'
  | vec b' => exact .vec b'
  | map b1 b2 => exact .map b1 b2
  | members h1 h2 h3 => exact .members h2 h1 (flip_each (fun _ _ h => h) h3)
  | enum h1 h2 h3 => exact .enum h2 h1 (flip_each (fun _ _ h => flip_each (fun _ _ h => h) h) h3)
  | indexer h1 h2 h3 => exact .indexer h2 h1 (flip_each (fun _ _ h => ⟨h.1.symm, flip_each (fun _ _ h => h) h.2⟩) h3)
  | union h1 h2 b' h3 => exact .union h2 h1 b' (flip_each (fun _ _ h => ⟨h.1.symm, flip_each (fun _ _ h => h) h.2⟩) h3)

/-- C100: types of one layout accept the same inputs, and read the same from them. -/
theorem C100_accepted {env env' : Env} {B : Ty → Ty → Prop} (hB : Layout env env' B) {t t' : Ty} (h : B t t')
    (b : Bytes) (v : Val) : (∃ n, fromBytes env n t b = .ok v) ↔ ∃ n, fromBytes env' n t' b = .ok v := by
  rw [C84_accepted, C84_accepted]
  exact ⟨fun f => f.alike hB h, fun f => f.alike hB.symm h⟩

/-- C100: so do readers at the front of an input, and they take the same bytes. -/
theorem C100_front {env env' : Env} {B : Ty → Ty → Prop} (hB : Layout env env' B) {t t' : Ty} (h : B t t')
    (input rest : Bytes) (v : Val) :
    (∃ n, deTy env n t input = .ok (v, rest)) ↔ ∃ n, deTy env' n t' input = .ok (v, rest) := by
  rw [C84_front, C84_front]
  exact ⟨fun ⟨bs, e, f⟩ => ⟨bs, e, f.alike hB h⟩, fun ⟨bs, e, f⟩ => ⟨bs, e, f.alike hB.symm h⟩⟩

/-- C100: what one program writes, the other reads as it was. -/
theorem C100_written {env env' : Env} {B : Ty → Ty → Prop} (hB : Layout env env' B) {t t' : Ty} (h : B t t')
    {v : Val} {b : Bytes} (hf : Fits env t v) (hw : toBytes env t v = .ok b) : ∃ n, fromBytes env' n t' b = .ok v :=
  (C84_accepted _ _ _ _).mpr ((C84_written env t v b hf hw).alike hB h)

/-- C100: both programs write the same bytes, or fail in the same way. -/
theorem C100_bytes {env env' : Env} {B : Ty → Ty → Prop} (hB : Layout env env' B) {t t' : Ty} (h : B t t')
    {v : Val} (ht : HasTy env t v) (ht' : HasTy env' t' v) : toBytes env t v = toBytes env' t' v := by
  obtain ⟨s, hs⟩ := Option.isSome_iff_exists.1 ht
  obtain ⟨s', hs'⟩ := Option.isSome_iff_exists.1 ht'
  unfold toBytes
  rw [hs, hs']
  exact Wire.oneWay hB _ v (Nat.lt_succ_self _) t t' s s' h (present_sound _ _ _ _ hs) (present_sound _ _ _ _ hs')

/-- C100: and a value of the one type is a value of the other. -/
theorem C100_typed {env env' : Env} {B : Ty → Ty → Prop} (hB : Layout env env' B) (hp : Wire.SamePositions env env' B)
    {t t' : Ty} (h : B t t') {v : Val} (ht : HasTy env t v) :
    HasTy env' t' v ∧ toBytes env' t' v = toBytes env t v := by
  obtain ⟨s, hs⟩ := Option.isSome_iff_exists.1 ht
  obtain ⟨s', hs'⟩ := Wire.moves hB hp _ v (Nat.lt_succ_self _) t t' s h (present_sound _ _ _ _ hs)
  have ht' : HasTy env' t' v := by rw [HasTy, hs'.complete]; rfl
  exact ⟨ht', (C100_bytes hB h ht ht').symm⟩

/-! ## Example -/

/-- The list of `Sample.env` with other names and without names of fields, and its colours with other names. -/
def Sample.other : Env := fun name =>
  if name = "Node" then some (.tupleStruct [.string, .option (.named "Node")])
  else if name = "Colour" then
    some (.enum [("None", .unit), ("Shades", .struct [("of", .vec .u16)]), ("Blend", .tuple [.u8, .i64])])
  else none

/-- Also `(i16, i16)` for `[i16; 2]`. -/
def Sample.pairs : List (Ty × Ty) := [(.named "Entry", .named "Node"), (.named "Color", .named "Colour"),
  (.array 2 .i16, .tuple [.i16, .i16]), (.option (.named "Entry"), .option (.named "Node")), (.vec .u16, .vec .u16),
  (.string, .string), (.u16, .u16), (.u8, .u8), (.i64, .i64), (.i16, .i16)]

def Sample.Related (t t' : Ty) : Prop := (t, t') ∈ Sample.pairs

theorem Sample.layout : Layout Sample.env Sample.other Sample.Related := by
  intro t t' h
  simp only [Related, pairs, List.mem_cons, List.not_mem_nil, or_false, Prod.mk.injEq] at h
  rcases h with ⟨rfl, rfl⟩ | ⟨rfl, rfl⟩ | ⟨rfl, rfl⟩ | ⟨rfl, rfl⟩ | ⟨rfl, rfl⟩ | ⟨rfl, rfl⟩ | ⟨rfl, rfl⟩ | ⟨rfl, rfl⟩ |
    ⟨rfl, rfl⟩ | ⟨rfl, rfl⟩
  · exact .members (.struct rfl) (.tupleStruct rfl)
      (.cons (by simp [Related, pairs]) (.cons (by simp [Related, pairs]) .nil))
  · exact .enum rfl rfl (.cons .nil (.cons (.cons (by simp [Related, pairs]) .nil)
      (.cons (.cons (by simp [Related, pairs]) (.cons (by simp [Related, pairs]) .nil)) .nil)))
  · exact .members .array .tuple (.cons (by simp [Related, pairs]) (.cons (by simp [Related, pairs]) .nil))
  · exact .option (by simp [Related, pairs])
  · exact .vec (by simp [Related, pairs])
  all_goals exact .plain (.same (by simp))

/-- Whatever is accepted as a list of one program is accepted as a list of the other. -/
example (b : Bytes) (v : Val) : (∃ n, fromBytes Sample.env n (.named "Entry") b = .ok v) ↔
    ∃ n, fromBytes Sample.other n (.named "Node") b = .ok v :=
  C100_accepted Sample.layout (by simp [Sample.Related, Sample.pairs]) b v

/-- There are such lists. -/
example : ∃ v, fromBytes Sample.env 8 (.named "Entry")
    [0, 0, 0, 2, 97, 98, 0, 0, 0, 0, 0, 1, 0, 0, 0, 0, 0, 0, 0, 0] = .ok v :=
  ⟨_, rfl⟩

/-- Colours are written in one way. -/
example : toBytes Sample.env (.named "Color") (.variant 2 [.u8 5, .i64 1]) =
    toBytes Sample.other (.named "Colour") (.variant 2 [.u8 5, .i64 1]) :=
  C100_bytes Sample.layout (by simp [Sample.Related, Sample.pairs]) rfl rfl

/-- So are all lists. -/
example (v : Val) (h : HasTy Sample.env (.named "Entry") v) : HasTy Sample.other (.named "Node") v ∧
    toBytes Sample.other (.named "Node") v = toBytes Sample.env (.named "Entry") v :=
  C100_typed Sample.layout (by simp [Wire.SamePositions, Sample.Related, Sample.pairs])
    (by simp [Sample.Related, Sample.pairs]) h

/-- Without the order of the members it would not hold: no relation of one layout relates these. -/
example (env env' : Env) (B : Ty → Ty → Prop) (h : Layout env env' B) : ¬ B (.tuple [.u8, .i64]) (.tuple [.i64, .u8]) := by
  intro hb
  cases h _ _ hb with
  | plain p => cases p; simp_all
  | noContent h => cases h
  | members h1 h2 h3 =>
    cases h1
    cases h2
    cases h3 with
    | cons b _ =>
      cases h _ _ b with
      | plain p => cases p; simp_all
      | noContent h => cases h
      | members h => cases h

end Xdr
