import Verif.Spec.Alike
import Verif.Spec.Form
import Mathlib.Data.List.Forall2
/-! # Types of one layout have the same forms -/

namespace Xdr.Wire

variable {env env' : Env} {B : Ty → Ty → Prop}

theorem forall2_replicate {t t' : Ty} (h : B t t') : ∀ n, List.Forall₂ B (List.replicate n t) (List.replicate n t')
  | 0 => .nil
  | n + 1 => .cons h (forall2_replicate h n)

theorem forall2_at {α β : Type} {R : α → β → Prop} : ∀ {l : List α} {l' : List β}, List.Forall₂ R l l' →
    ∀ {i : Nat} {a : α}, l[i]? = some a → ∃ b, l'[i]? = some b ∧ R a b
  | _, _, .nil, i, a, h => by simp at h
  | _, _, .cons h hs, 0, a, e => by
    simp only [List.getElem?_cons_zero, Option.some.injEq] at e
    subst e
    exact ⟨_, rfl, h⟩
  | _, _, .cons h hs, i + 1, a, e => by
    simp only [List.getElem?_cons_succ] at e ⊢
    exact forall2_at hs e

theorem called_alike {α β : Type} {R : α → β → Prop} {l : List (String × α)} {l' : List (String × β)}
    (h : List.Forall₂ (fun x x' => x.1 = x'.1 ∧ R x.2 x'.2) l l') {vn : String} {i : Nat} {a : α} (hc : Called l vn i a) :
    ∃ b, Called l' vn i b ∧ R a b := by
  obtain ⟨⟨n, b⟩, hb, e, r⟩ := forall2_at h hc.1
  cases e
  refine ⟨b, ⟨hb, fun j hj x hx => ?_⟩, r⟩
  obtain ⟨y, hy, e, -⟩ := forall2_at h.flip hx
  rw [← e]
  exact hc.2 j hj y hy

theorem Members.form {t : Ty} {ts : List Ty} (h : Members env t ts) {vs : List Val} {bs : Bytes}
    (f : Forms env ts vs bs) : Form env t (.seq vs) bs := by
  cases h with
  | tuple => exact .tuple f
  | array => exact .array f
  | newtypeStruct e =>
    cases f with
    | cons f fs =>
      cases fs
      rw [List.append_nil]
      exact .newtypeStruct e f
  | tupleStruct e => exact .tupleStruct e f
  | struct e => exact .struct e f

theorem plain_form {t t' : Ty} (h : Plain t t') {v : Val} {bs : Bytes} (f : Form env t v bs) : Form env' t' v bs := by
  cases h with
  | same h =>
    simp only [List.mem_cons, List.not_mem_nil, or_false] at h
    rcases h with rfl | rfl | rfl | rfl | rfl | rfl | rfl | rfl | rfl | rfl | rfl | rfl | rfl <;> cases f <;>
      constructor <;> assumption
  | «opaque» h h' =>
    simp only [List.mem_cons, List.not_mem_nil, or_false] at h h'
    rcases h with rfl | rfl <;> rcases h' with rfl | rfl <;> cases f <;> constructor <;> assumption
  | opaqueFixed => cases f; constructor; assumption
  | signed32 =>
    cases f with
    | signed32 h1 h2 => exact .signed32 h1 h2

/-- Only members: what a form of a type with members is. -/
theorem members_one {t t' : Ty} {ts : List Ty} (hm : Members env t ts) (h : OneKind env env' B t t') :
    ∃ ts', Members env' t' ts' ∧ List.Forall₂ B ts ts' := by
  cases h with
  | members h1 h2 h3 =>
    have : ∀ us, Members env t us → us = ts := by
      intro us hu
      cases hm <;> cases hu <;> simp_all
    cases this _ h1
    exact ⟨_, h2, h3⟩
  | plain h => cases hm <;> cases h <;> simp_all
  | noContent h => cases hm <;> cases h <;> simp_all
  | option => cases hm
  | vec => cases hm
  | map => cases hm
  | enum h => cases hm <;> simp_all
  | indexer h => cases hm <;> simp_all
  | union h => cases hm <;> simp_all

theorem noContent_one {t t' : Ty} (hm : NoContent env t) (h : OneKind env env' B t t') : NoContent env' t' := by
  cases h with
  | noContent _ h => exact h
  | plain h => cases hm <;> cases h <;> simp_all
  | members h => cases hm <;> cases h <;> simp_all
  | option => cases hm
  | vec => cases hm
  | map => cases hm
  | enum h => cases hm; simp_all
  | indexer h => cases hm; simp_all
  | union h => cases hm; simp_all

theorem NoContent.form {t : Ty} (h : NoContent env t) : Form env t .unit [] := by
  cases h with
  | unit => exact .unit
  | unitStruct e => exact .unitStruct e

mutual
theorem Form.alike (hB : Layout env env' B) : ∀ {t v bs}, Form env t v bs → ∀ {t'}, B t t' → Form env' t' v bs
  | _, _, _, .bool h, _, b => by
    cases hB _ _ b with
    | plain p => exact plain_form p (.bool (env := env) h)
    | noContent h => cases h
    | members h => cases h
  | _, _, _, .i8 h, _, b => by
    cases hB _ _ b with
    | plain p => exact plain_form p (.i8 (env := env) h)
    | noContent h => cases h
    | members h => cases h
  | _, _, _, .i16 h, _, b => by
    cases hB _ _ b with
    | plain p => exact plain_form p (.i16 (env := env) h)
    | noContent h => cases h
    | members h => cases h
  | _, _, _, .i32 h, _, b => by
    cases hB _ _ b with
    | plain p => exact plain_form p (.i32 (env := env) h)
    | noContent h => cases h
    | members h => cases h
  | _, _, _, .i64 h, _, b => by
    cases hB _ _ b with
    | plain p => exact plain_form p (.i64 (env := env) h)
    | noContent h => cases h
    | members h => cases h
  | _, _, _, .u8 h, _, b => by
    cases hB _ _ b with
    | plain p => exact plain_form p (.u8 (env := env) h)
    | noContent h => cases h
    | members h => cases h
  | _, _, _, .u16 h, _, b => by
    cases hB _ _ b with
    | plain p => exact plain_form p (.u16 (env := env) h)
    | noContent h => cases h
    | members h => cases h
  | _, _, _, .u32 h, _, b => by
    cases hB _ _ b with
    | plain p => exact plain_form p (.u32 (env := env) h)
    | noContent h => cases h
    | members h => cases h
  | _, _, _, .u64 h, _, b => by
    cases hB _ _ b with
    | plain p => exact plain_form p (.u64 (env := env) h)
    | noContent h => cases h
    | members h => cases h
  | _, _, _, .f32 h, _, b => by
    cases hB _ _ b with
    | plain p => exact plain_form p (.f32 (env := env) h)
    | noContent h => cases h
    | members h => cases h
  | _, _, _, .f64 h, _, b => by
    cases hB _ _ b with
    | plain p => exact plain_form p (.f64 (env := env) h)
    | noContent h => cases h
    | members h => cases h
  | _, _, _, .char c, _, b => by
    cases hB _ _ b with
    | plain p => exact plain_form p (.char (env := env) c)
    | noContent h => cases h
    | members h => cases h
  | _, _, _, .string h h2, _, b => by
    cases hB _ _ b with
    | plain p => exact plain_form p (.string (env := env) h h2)
    | noContent h => cases h
    | members h => cases h
  | _, _, _, .bytes h h2, _, b => by
    cases hB _ _ b with
    | plain p => exact plain_form p (.bytes (env := env) h h2)
    | noContent h => cases h
    | members h => cases h
  | _, _, _, .opaqueVar h h2, _, b => by
    cases hB _ _ b with
    | plain p => exact plain_form p (.opaqueVar (env := env) h h2)
    | noContent h => cases h
    | members h => cases h
  | _, _, _, .opaqueFixed h, _, b => by
    cases hB _ _ b with
    | plain p => exact plain_form p (.opaqueFixed (env := env) h)
    | noContent h => cases h
    | members h => cases h
  | _, _, _, .signed32 h h2, _, b => by
    cases hB _ _ b with
    | plain p => exact plain_form p (.signed32 (env := env) h h2)
    | noContent h => cases h
    | members h => cases h
  | _, _, _, .unit, _, b => (noContent_one .unit (hB _ _ b)).form
  | _, _, _, .unitStruct e, _, b => (noContent_one (.unitStruct e) (hB _ _ b)).form
  | _, _, _, .none, _, b => by
    cases hB _ _ b with
    | option _ => exact .none
    | plain p => cases p <;> simp_all
    | noContent h => cases h
    | members h => cases h
  | _, _, _, .some h1 h2 f, _, b => by
    cases hB _ _ b with
    | option b' => exact .some h1 h2 (f.alike hB b')
    | plain p => cases p <;> simp_all
    | noContent h => cases h
    | members h => cases h
  | _, _, _, .vec h f, _, b => by
    cases hB _ _ b with
    | vec b' => exact .vec h (f.alike hB (forall2_replicate b' _))
    | plain p => cases p <;> simp_all
    | noContent h => cases h
    | members h => cases h
  | _, _, _, .map h f hf, _, b => by
    cases hB _ _ b with
    | map b1 b2 => exact .map h (f.alike hB b1 b2) hf
    | plain p => cases p <;> simp_all
    | noContent h => cases h
    | members h => cases h
  | _, _, _, .array f, _, b => by
    obtain ⟨ts', h1, h2⟩ := members_one .array (hB _ _ b)
    exact h1.form (f.alike hB h2)
  | _, _, _, .tuple f, _, b => by
    obtain ⟨ts', h1, h2⟩ := members_one .tuple (hB _ _ b)
    exact h1.form (f.alike hB h2)
  | _, _, _, .newtypeStruct e f, _, b => by
    obtain ⟨ts', h1, h2⟩ := members_one (.newtypeStruct e) (hB _ _ b)
    cases h2 with
    | cons b' h2 =>
      cases h2
      have := h1.form (.cons (f.alike hB b') .nil)
      rwa [List.append_nil] at this
  | _, _, _, .tupleStruct e f, _, b => by
    obtain ⟨ts', h1, h2⟩ := members_one (.tupleStruct e) (hB _ _ b)
    exact h1.form (f.alike hB h2)
  | _, _, _, .struct e f, _, b => by
    obtain ⟨ts', h1, h2⟩ := members_one (.struct e) (hB _ _ b)
    exact h1.form (f.alike hB h2)
  | _, _, _, .enum e hi hx f, _, b => by
    cases hB _ _ b with
    | enum e1 e2 h =>
      rw [e] at e1
      cases e1
      obtain ⟨⟨vn', sh'⟩, hx', r⟩ := forall2_at h hx
      exact .enum e2 hi hx' (f.alike hB r)
    | plain p => cases p <;> simp_all
    | noContent h => cases h; simp_all
    | members h => cases h <;> simp_all
    | indexer e1 => simp_all
    | union e1 => simp_all
  | _, _, _, .indexer e hk hn hc hl f, _, b => by
    cases hB _ _ b with
    | indexer e1 e2 h =>
      rw [e] at e1
      cases e1
      obtain ⟨fs', hc', r⟩ := called_alike (R := fun a (b : Option (List Ty)) => List.Forall₂ B (a.getD []) (b.getD [])) h hc
      exact .indexer e2 hk hn hc' (r.length_eq ▸ hl) (f.alike hB r)
    | plain p => cases p <;> simp_all
    | noContent h => cases h; simp_all
    | members h => cases h <;> simp_all
    | enum e1 => simp_all
    | union e1 => simp_all
  | _, _, _, .union e fd hn hc hl f, _, b => by
    cases hB _ _ b with
    | union e1 e2 bd h =>
      rw [e] at e1
      cases e1
      obtain ⟨fs', hc', r⟩ := called_alike (R := fun a (b : Option (List Ty)) => List.Forall₂ B (a.getD []) (b.getD [])) h hc
      cases fs' with
      | none => simp at r
      | some us =>
        simp only [Option.getD_some] at r
        cases r with
        | cons _ r => exact .union e2 (fd.alike hB bd) hn hc' (r.length_eq ▸ hl) (f.alike hB r)
    | plain p => cases p <;> simp_all
    | noContent h => cases h; simp_all
    | members h => cases h <;> simp_all
    | enum e1 => simp_all
    | indexer e1 => simp_all
  | _, _, _, .unionUnit e fd hn hc hl, _, b => by
    cases hB _ _ b with
    | union e1 e2 bd h =>
      rw [e] at e1
      cases e1
      obtain ⟨fs', hc', r⟩ := called_alike (R := fun a (b : Option (List Ty)) => List.Forall₂ B (a.getD []) (b.getD [])) h hc
      rw [hl] at r
      exact .unionUnit e2 (fd.alike hB bd) hn hc' (by cases fs' <;> simp_all)
    | plain p => cases p <;> simp_all
    | noContent h => cases h; simp_all
    | members h => cases h <;> simp_all
    | enum e1 => simp_all
    | indexer e1 => simp_all

theorem Forms.alike (hB : Layout env env' B) : ∀ {ts vs bs}, Forms env ts vs bs → ∀ {ts'}, List.Forall₂ B ts ts' →
    Forms env' ts' vs bs
  | _, _, _, .nil, _, b => by cases b; exact .nil
  | _, _, _, .cons f fs, _, b => by
    cases b with
    | cons b bs => exact .cons (f.alike hB b) (fs.alike hB bs)

theorem Pairs.alike (hB : Layout env env' B) : ∀ {k t ps bs}, Pairs env k t ps bs → ∀ {k' t'}, B k k' → B t t' →
    Pairs env' k' t' ps bs
  | _, _, _, _, .nil, _, _, _, _ => .nil
  | _, _, _, _, .cons f1 f2 fs, _, _, b1, b2 => .cons (f1.alike hB b1) (f2.alike hB b2) (fs.alike hB b1 b2)
end

end Xdr.Wire
