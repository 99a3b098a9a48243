import Verif.Spec.TypeSize
import Verif.Spec.Form
/-! # How many bytes the forms of a value take -/

namespace Xdr.Wire

variable {env : Env}

/-- Within the limits. -/
def Within (lo : Nat) (hi : Option Nat) (n : Nat) : Prop := lo ≤ n ∧ ∀ h, hi = some h → n ≤ h

theorem within_exact {k n : Nat} (h : n = k) : Within k (some k) n := ⟨by omega, fun _ e => by cases e; omega⟩

theorem within_from {lo n : Nat} (h : lo ≤ n) : Within lo none n := ⟨h, nofun⟩

theorem Within.plus {lo lo' n n' : Nat} {hi hi' : Option Nat} (h : Within lo hi n) (h' : Within lo' hi' n') :
    Within (lo + lo') (plus hi hi') (n + n') := by
  refine ⟨Nat.add_le_add h.1 h'.1, fun k e => ?_⟩
  cases hi <;> cases hi' <;> simp only [Wire.plus, reduceCtorEq, Option.some.injEq] at e
  have := h.2 _ rfl
  have := h'.2 _ rfl
  omega

theorem Within.wider {lo lo' n : Nat} {hi hi' : Option Nat} (h : Within lo hi n) (hl : lo' ≤ lo)
    (hm : NoMore hi hi') : Within lo' hi' n := by
  refine ⟨Nat.le_trans hl h.1, fun k e => ?_⟩
  obtain ⟨m, e', hm⟩ := hm k e
  exact Nat.le_trans (h.2 m e') hm

theorem length_word (k : Nat) : (word k).length = 4 := by simp [word, Rfc.beBytes]

theorem length_dword (k : Nat) : (dword k).length = 8 := by simp [dword, Rfc.beBytes]

theorem within_elements {t : Ty} {lo : Nat} {hi : Option Nat}
    (h : ∀ {v bs}, Form env t v bs → Within lo hi bs.length) :
    ∀ {n vs bs}, Forms env (List.replicate n t) vs bs → Within (n * lo) (hi.map (n * ·)) bs.length
  | 0, _, _, f => by
    cases f
    exact ⟨by simp, fun _ _ => by simp⟩
  | n + 1, _, _, f => by
    rw [List.replicate_succ] at f
    cases f with
    | cons f fs =>
      have a := h f
      have b := within_elements h fs
      rw [List.length_append]
      refine ⟨by have := a.1; have := b.1; rw [Nat.succ_mul]; omega, fun k e => ?_⟩
      cases hi with
      | none => cases e
      | some m =>
        cases e
        have h1 := a.2 _ rfl
        have h2 : _ ≤ n * m := b.2 _ rfl
        simp only [Nat.succ_mul]
        omega

theorem length_elements {t : Ty} : ∀ {n vs bs}, Forms env (List.replicate n t) vs bs → vs.length = n
  | 0, _, _, f => by cases f; rfl
  | n + 1, _, _, f => by
    rw [List.replicate_succ] at f
    cases f with
    | cons _ fs => simp [length_elements fs]

mutual
theorem TypeSize.form : ∀ {t lo hi}, TypeSize env t lo hi → ∀ {v bs}, Form env t v bs → Within lo hi bs.length
  | _, _, _, .word h, v, bs, f => by
    simp only [List.mem_cons, List.not_mem_nil, or_false] at h
    rcases h with rfl | rfl | rfl | rfl | rfl | rfl | rfl | rfl | rfl <;> cases f <;>
      exact within_exact (length_word _)
  | _, _, _, .dword h, v, bs, f => by
    simp only [List.mem_cons, List.not_mem_nil, or_false] at h
    rcases h with rfl | rfl | rfl <;> cases f <;> exact within_exact (length_dword _)
  | _, _, _, .unit, v, bs, f => by cases f; exact within_exact rfl
  | _, _, _, .counted h, v, bs, f => by
    simp only [List.mem_cons, List.not_mem_nil, or_false] at h
    rcases h with (rfl | rfl | rfl) | ⟨_, rfl⟩ | ⟨_, _, rfl⟩ <;> cases f <;>
      exact within_from (by rw [List.length_append, length_word]; omega)
  | _, _, _, .opaqueFixed, v, bs, f => by
    cases f with
    | opaqueFixed hp =>
      obtain ⟨h1, h2⟩ := hp
      refine within_exact ?_
      rw [List.length_append]
      omega
  | _, _, _, .option (hi := hi) h, v, bs, f => by
    cases f with
    | none =>
      refine ⟨by rw [length_word]; omega, fun k e => ?_⟩
      rw [length_word]
      cases hi <;> simp only [plus, reduceCtorEq, Option.some.injEq] at e
      omega
    | @some _ _ k _ _ _ f =>
      rw [List.length_append]
      have := (within_exact (length_word k)).plus (h.form f)
      exact ⟨by have := this.1; omega, this.2⟩
  | _, _, _, .array h, v, bs, f => by
    cases f with
    | array f => exact within_elements (fun f => h.form f) f
  | _, _, _, .tuple h, v, bs, f => by
    cases f with
    | tuple f => exact h.forms f
  | _, _, _, .signed32, v, bs, f => by cases f; exact within_exact (length_word _)
  | _, _, _, .unitStruct he, v, bs, f => by
    cases f with
    | unitStruct _ => exact within_exact rfl
    | _ => simp_all
  | _, _, _, .newtypeStruct he h, v, bs, f => by
    cases f with
    | newtypeStruct e f =>
      rw [he] at e
      cases e
      exact h.form f
    | _ => simp_all
  | _, _, _, .tupleStruct he h, v, bs, f => by
    cases f with
    | tupleStruct e f =>
      rw [he] at e
      cases e
      exact h.forms f
    | _ => simp_all
  | _, _, _, .struct he h, v, bs, f => by
    cases f with
    | struct e f =>
      rw [he] at e
      cases e
      exact h.forms f
    | _ => simp_all
  | _, _, _, .enum he h, v, bs, f => by
    cases f with
    | enum e _ hx f =>
      rw [he] at e
      cases e
      rw [List.length_append]
      exact (within_exact (length_word _)).plus ((h _ (List.mem_of_getElem? hx)).forms f)
    | _ => simp_all
  | _, _, _, .indexer he h, v, bs, f => by
    cases f with
    | indexer e _ _ hx _ f =>
      rw [he] at e
      cases e
      rw [List.length_append]
      exact (within_exact (length_word _)).plus ((h _ (List.mem_of_getElem? hx.1)).forms f)
    | _ => simp_all
  | _, _, _, .union he hd h, v, bs, f => by
    cases f with
    | union e fd _ hx _ f =>
      rw [he] at e
      cases e
      rw [List.length_append]
      exact (hd.form fd).plus ((h _ (List.mem_of_getElem? hx.1)).forms f)
    | unionUnit e fd _ hx hn =>
      rw [he] at e
      cases e
      have a := (h _ (List.mem_of_getElem? hx.1)).forms (vs := []) (bs := []) (by simp only [hn, List.tail_nil]; exact .nil)
      exact (hd.form fd).plus a
    | _ => simp_all
  | _, _, _, .wider h hl hm, v, bs, f => (h.form f).wider hl hm
  | _, _, _, .any, v, bs, f => within_from (Nat.zero_le _)

theorem TypeSizes.forms : ∀ {ts lo hi}, TypeSizes env ts lo hi → ∀ {vs bs}, Forms env ts vs bs →
    Within lo hi bs.length
  | _, _, _, .nil, vs, bs, f => by cases f; exact within_exact rfl
  | _, _, _, .cons h hs, vs, bs, f => by
    cases f with
    | cons f fs =>
      rw [List.length_append]
      exact (h.form f).plus (hs.forms fs)
  | _, _, _, .wider h hl hm, vs, bs, f => (h.forms f).wider hl hm
end

end Xdr.Wire
