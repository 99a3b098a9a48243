import Verif.RpcgenProofs.NeverMisreads
import Verif.Spec.MessageSize
/-! # How many bytes the values of a type take: what readers take, and what is written -/

namespace Xdr.Rpcgen

open Rfc (XVal)
open Wire (Padding)

variable {ds : List Definition} {cfg : Config} {L : Leeway}

/-- Within the limits. -/
def InSize (lo : Nat) (hi : Option Nat) (n : Nat) : Prop := lo ≤ n ∧ ∀ h, hi = some h → n ≤ h

theorem inSize_exact {k n : Nat} (h : n = k) : InSize k (some k) n := ⟨by omega, fun _ e => by cases e; omega⟩

theorem InSize.add {lo lo' n n' : Nat} {hi hi' : Option Nat} (h : InSize lo hi n) (h' : InSize lo' hi' n') :
    InSize (lo + lo') (addMost hi hi') (n + n') := by
  refine ⟨Nat.add_le_add h.1 h'.1, fun k e => ?_⟩
  cases hi <;> cases hi' <;> simp only [addMost, reduceCtorEq, Option.some.injEq] at e
  have := h.2 _ rfl
  have := h'.2 _ rfl
  omega

theorem InSize.arm {lo lo' n : Nat} {hi hi' : Option Nat} (h : InSize lo' hi' n)
    (hb : lo ≤ lo' ∧ ∀ h, hi = some h → ∃ m, hi' = some m ∧ m ≤ h) : InSize lo hi n := by
  refine ⟨Nat.le_trans hb.1 h.1, fun k e => ?_⟩
  obtain ⟨m, e', hm⟩ := hb.2 k e
  exact Nat.le_trans (h.2 m e') hm

theorem inSize_nothing {hi : Option Nat} : InSize 0 hi 0 := ⟨Nat.zero_le _, fun _ _ => Nat.zero_le _⟩

theorem InSize.least {lo lo' n : Nat} {hi : Option Nat} (h : InSize lo hi n) (hl : lo' ≤ lo) : InSize lo' hi n :=
  ⟨Nat.le_trans hl h.1, h.2⟩

theorem inSize_from {lo n : Nat} (h : lo ≤ n) : InSize lo none n := ⟨h, nofun⟩

theorem inSize_word {lo n : Nat} {hi : Option Nat} (h0 : lo = 0) (h : n = 4) :
    InSize (4 + lo) (addMost (some 4) hi) n := by
  subst h0 h
  exact (inSize_exact rfl).add inSize_nothing

theorem InSize.one_more {lo k n n' : Nat} {hi : Option Nat} (h : InSize lo hi n)
    (h' : InSize (k * lo) (hi.map (k * ·)) n') : InSize ((k + 1) * lo) (hi.map ((k + 1) * ·)) (n + n') := by
  cases hi with
  | none => exact inSize_from (by have := h.1; have := h'.1; rw [Nat.succ_mul]; omega)
  | some m =>
    have h1 := h.2 _ rfl
    have h2 : n' ≤ k * m := h'.2 _ rfl
    refine ⟨by have := h.1; have := h'.1; rw [Nat.succ_mul]; omega, fun _ e => ?_⟩
    cases e
    simp only [Nat.succ_mul]
    omega

theorem inSize_any (n : Nat) : InSize 0 none n := ⟨Nat.zero_le _, nofun⟩

/-! ## Discriminants are one word -/

mutual
theorem TypedF.disc : ∀ {ts x bs}, TypedF ds cfg ts x bs → ∀ {k}, discriminant x = some k → bs.length = 4
  | _, _, _, .int h, _, _ => signed_length h
  | _, _, _, .uint h, _, _ => unsigned_length h
  | _, _, _, .hyper _, _, hk => by cases hk
  | _, _, _, .uhyper _, _, hk => by cases hk
  | _, _, _, .float _, _, hk => by cases hk
  | _, _, _, .double _, _, hk => by cases hk
  | _, _, _, .bool _, _, _ => word_length _
  | _, _, _, .char _ _ _ _, _, _ => word_length _
  | _, _, _, .uchar _, _, _ => word_length _
  | _, _, _, .short _ _ _ _, _, _ => word_length _
  | _, _, _, .ushort _, _, _ => word_length _
  | _, _, _, .name _ h, _, hk => h.disc hk

theorem DefinedF.disc : ∀ {t x bs}, DefinedF ds cfg t x bs → ∀ {k}, discriminant x = some k → bs.length = 4
  | _, _, _, .typedef h, _, hk => h.disc hk
  | _, _, _, .enum _ _ h, _, _ => signed_length h
  | _, _, _, .enumGap _ _ _ _ _ h, _, _ => signed_length h
  | _, _, _, .enumOther _ _ _ _ h _, _, _ => h
  | _, _, _, .struct _, _, hk => by cases hk
  | _, _, _, .arm _ _ _ _ _ _ _, _, hk => by cases hk
  | _, _, _, .bareArm _ _ _ _ _, _, hk => by cases hk
  | _, _, _, .gap _ _ _ _, _, hk => by cases hk
  | _, _, _, .next _ _ _ _ _ _, _, hk => by cases hk
  | _, _, _, .default _ _ _ _ _ _ _, _, hk => by cases hk

theorem DeclaredF.disc : ∀ {d x bs}, DeclaredF ds cfg d x bs → ∀ {k}, discriminant x = some k → bs.length = 4
  | _, _, _, .variable h, _, hk => h.disc hk
  | _, _, _, .fixedArray _ _, _, hk => by cases hk
  | _, _, _, .variableArray _ _, _, hk => by cases hk
  | _, _, _, .opaqueFixed _ _, _, hk => by cases hk
  | _, _, _, .opaqueVar _ _, _, hk => by cases hk
  | _, _, _, .string _ _, _, hk => by cases hk
  | _, _, _, .absent, _, hk => by cases hk
  | _, _, _, .present _ _ _, _, hk => by cases hk
  | _, _, _, .void, _, hk => by cases hk
end

theorem disc_encode {x : XVal} {k : Int} {bs : Bytes} (h : discriminant x = some k) (he : Rfc.encode x = some bs) :
    bs.length = 4 := by
  cases x <;> simp only [discriminant, reduceCtorEq] at h <;> simp only [Rfc.encode] at he <;>
    first | exact signed_length he | exact unsigned_length he

/-! ## What readers take -/

mutual
theorem TypedF.size : ∀ {ts x bs lo hi}, TypedF ds cfg ts x bs → TypeSize ds cfg.leeway.unionGaps ts lo hi →
    InSize lo hi bs.length
  | _, _, _, _, _, .int h, hs => by cases hs <;> first | exact inSize_exact (signed_length h) | exact inSize_any _
  | _, _, _, _, _, .uint h, hs => by cases hs <;> first | exact inSize_exact (unsigned_length h) | exact inSize_any _
  | _, _, _, _, _, .hyper h, hs => by cases hs <;> first | exact inSize_exact (signed_length h) | exact inSize_any _
  | _, _, _, _, _, .uhyper h, hs => by cases hs <;> first | exact inSize_exact (unsigned_length h) | exact inSize_any _
  | _, _, _, _, _, .float h, hs => by cases hs <;> first | exact inSize_exact (unsigned_length h) | exact inSize_any _
  | _, _, _, _, _, .double h, hs => by cases hs <;> first | exact inSize_exact (unsigned_length h) | exact inSize_any _
  | _, _, _, _, _, .bool (w := w) _, hs => by cases hs <;> first | exact inSize_exact (word_length w) | exact inSize_any _
  | _, _, _, _, _, .char (w := w) _ _ _ _, hs => by cases hs <;> first | exact inSize_exact (word_length w) | exact inSize_any _
  | _, _, _, _, _, .uchar (w := w) _, hs => by cases hs <;> first | exact inSize_exact (word_length w) | exact inSize_any _
  | _, _, _, _, _, .short (w := w) _ _ _ _, hs => by cases hs <;> first | exact inSize_exact (word_length w) | exact inSize_any _
  | _, _, _, _, _, .ushort (w := w) _, hs => by cases hs <;> first | exact inSize_exact (word_length w) | exact inSize_any _
  | _, _, _, _, _, .name h1 h, hs => by
    cases hs with
    | name h1' hs =>
      rw [h1] at h1'
      cases h1'
      exact h.size hs
    | any => exact inSize_any _

theorem DefinedF.size : ∀ {t x bs lo hi}, DefinedF ds cfg t x bs → DefSize ds cfg.leeway.unionGaps t lo hi →
    InSize lo hi bs.length
  | _, _, _, _, _, .typedef h, hs => by cases hs with | typedef hs => exact h.size hs
  | _, _, _, _, _, .enum _ _ h, hs => by cases hs; exact inSize_exact (signed_length h)
  | _, _, _, _, _, .enumGap _ _ _ _ _ h, hs => by cases hs; exact inSize_exact (signed_length h)
  | _, _, _, _, _, .enumOther _ _ _ _ h _, hs => by cases hs; exact inSize_exact h
  | _, _, _, _, _, .struct h, hs => by cases hs with | struct hs => exact h.size hs
  | _, _, _, _, _, .arm _ _ hl _ h1 hk h, hs => by
    cases hs with
    | union hd hb _ =>
      rw [List.length_append]
      exact (inSize_exact (h1.disc hk)).add (InSize.arm (h.size (hd _ (.inl ⟨_, hl⟩))) (hb _ (.inl ⟨_, hl⟩)))
  | _, _, _, _, _, .bareArm (k := k) _ _ hl _ h, hs => by
    cases hs with
    | union hd hb _ =>
      rw [List.length_append]
      exact (inSize_exact (word_length k)).add (InSize.arm (h.size (hd _ (.inl ⟨_, hl⟩))) (hb _ (.inl ⟨_, hl⟩)))
  | _, _, _, _, _, .gap (k := k) hg _ _ _, hs => by
    cases hs with
    | union hd hb h0 =>
      exact inSize_word (h0 hg) (word_length k)
  | _, _, _, _, _, .next (k := k) _ _ hdf _ _ h, hs => by
    cases hs with
    | union hd hb _ =>
      rw [List.length_append]
      exact (inSize_exact (word_length k)).add (InSize.arm (h.size (hd _ (.inr hdf))) (hb _ (.inr hdf)))
  | _, _, _, _, _, .default _ _ hdf h1 hk _ h, hs => by
    cases hs with
    | union hd hb _ =>
      rw [List.length_append]
      exact (inSize_exact (h1.disc hk)).add (InSize.arm (h.size (hd _ (.inr hdf))) (hb _ (.inr hdf)))

theorem DeclaredF.size : ∀ {d x bs lo hi}, DeclaredF ds cfg d x bs → DeclSize ds cfg.leeway.unionGaps d lo hi →
    InSize lo hi bs.length
  | _, _, _, _, _, .variable h, hs => by cases hs with | «variable» hs => exact h.size hs
  | _, _, _, _, _, .fixedArray h1 h, hs => by
    cases hs with
    | fixedArray h1' hs =>
      have := stands_unique h1 h1'
      obtain rfl := Int.ofNat.inj this
      exact h.size hs
  | _, _, _, _, _, .variableArray _ _, hs => by
    cases hs
    refine inSize_from ?_
    rw [List.length_append, word_length]
    omega
  | _, _, _, _, _, .opaqueFixed h1 hp, hs => by
    cases hs with
    | opaqueFixed h1' =>
      have := stands_unique h1 h1'
      obtain rfl := Int.ofNat.inj this
      obtain ⟨hp1, hp2⟩ := hp
      refine inSize_exact ?_
      rw [List.length_append]
      omega
  | _, _, _, _, _, .opaqueVar _ _, hs => by
    cases hs
    refine inSize_from ?_
    rw [List.length_append, word_length]
    omega
  | _, _, _, _, _, .string _ _, hs => by
    cases hs
    refine inSize_from ?_
    rw [List.length_append, word_length]
    omega
  | _, _, _, _, _, .absent, hs => by
    cases hs with
    | optional hs => exact (inSize_word rfl (word_length _)).least (Nat.le_refl _)
  | _, _, _, _, _, .present (w := w) _ _ h, hs => by
    cases hs with
    | optional hs =>
      rw [List.length_append]
      exact ((inSize_exact (word_length w)).add (h.size hs)).least (Nat.le_add_right _ _)
  | _, _, _, _, _, .void, hs => by cases hs; exact inSize_exact rfl

theorem EachF.size : ∀ {ts xs bs lo hi}, EachF ds cfg ts xs bs → TypeSize ds cfg.leeway.unionGaps ts lo hi →
    InSize (xs.length * lo) (hi.map (xs.length * ·)) bs.length
  | _, _, _, _, _, .nil, _ => by
    refine ⟨by simp, fun h _ => by simp⟩
  | _, _, _, _, _, .cons h h', hs => by
    rw [List.length_append]
    exact (h.size hs).one_more (h'.size hs)

theorem MembersF.size : ∀ {ms xs bs lo hi}, MembersF ds cfg ms xs bs → MemberSizes ds cfg.leeway.unionGaps ms lo hi →
    InSize lo hi bs.length
  | _, _, _, _, _, .nil, hs => by cases hs; exact inSize_exact rfl
  | _, _, _, _, _, .cons h h', hs => by
    cases hs with
    | cons hs hs' =>
      rw [List.length_append]
      exact (h.size hs).add (h'.size hs')
end

/-! ## What is written -/

theorem cat_inv {a b : Option Bytes} {bs : Bytes} (h : Rfc.cat a b = some bs) :
    ∃ b1 b2, a = some b1 ∧ b = some b2 ∧ bs = b1 ++ b2 := by
  cases a <;> cases b <;> simp only [Rfc.cat, reduceCtorEq, Option.some.injEq] at h
  exact ⟨_, _, rfl, rfl, h.symm⟩

mutual
theorem TypedL.size : ∀ {ts x lo hi}, TypedL ds L ts x → TypeSize ds L.unionGaps ts lo hi →
    ∀ {bs}, Rfc.encode x = some bs → InSize lo hi bs.length
  | _, _, _, _, .int _ _, hs, _, he => by cases hs <;> first | exact inSize_exact (signed_length he) | exact inSize_any _
  | _, _, _, _, .uint _, hs, _, he => by cases hs <;> first | exact inSize_exact (unsigned_length he) | exact inSize_any _
  | _, _, _, _, .hyper _ _, hs, _, he => by cases hs <;> first | exact inSize_exact (signed_length he) | exact inSize_any _
  | _, _, _, _, .uhyper _, hs, _, he => by cases hs <;> first | exact inSize_exact (unsigned_length he) | exact inSize_any _
  | _, _, _, _, .float _, hs, _, he => by cases hs <;> first | exact inSize_exact (unsigned_length he) | exact inSize_any _
  | _, _, _, _, .double _, hs, _, he => by cases hs <;> first | exact inSize_exact (unsigned_length he) | exact inSize_any _
  | _, _, _, _, .bool, hs, _, he => by cases hs <;> first | exact inSize_exact (signed_length he) | exact inSize_any _
  | _, _, _, _, .char _ _, hs, _, he => by cases hs <;> first | exact inSize_exact (signed_length he) | exact inSize_any _
  | _, _, _, _, .uchar _, hs, _, he => by cases hs <;> first | exact inSize_exact (unsigned_length he) | exact inSize_any _
  | _, _, _, _, .short _ _, hs, _, he => by cases hs <;> first | exact inSize_exact (signed_length he) | exact inSize_any _
  | _, _, _, _, .ushort _, hs, _, he => by cases hs <;> first | exact inSize_exact (unsigned_length he) | exact inSize_any _
  | _, _, _, _, .name h1 h, hs, _, he => by
    cases hs with
    | name h1' hs =>
      rw [h1] at h1'
      cases h1'
      exact h.size hs he
    | any => exact inSize_any _

theorem DefinedL.size : ∀ {t x lo hi}, DefinedL ds L t x → DefSize ds L.unionGaps t lo hi →
    ∀ {bs}, Rfc.encode x = some bs → InSize lo hi bs.length
  | _, _, _, _, .typedef h, hs, _, he => by cases hs with | typedef hs => exact h.size hs he
  | _, _, _, _, .enum _ _, hs, _, he => by cases hs; exact inSize_exact (signed_length he)
  | _, _, _, _, .enumGap _ _ _ _ _, hs, _, he => by cases hs; exact inSize_exact (signed_length he)
  | _, _, _, _, .struct h, hs, _, he => by cases hs with | struct hs => exact h.size hs he
  | _, _, _, _, .arm _ hl _ _ hk h, hs, _, he => by
    obtain ⟨b1, b2, e1, e2, rfl⟩ := cat_inv he
    cases hs with
    | union hd hb _ =>
      rw [List.length_append]
      exact (inSize_exact (disc_encode hk e1)).add (InSize.arm (h.size (hd _ (.inl ⟨_, hl⟩)) e2) (hb _ (.inl ⟨_, hl⟩)))
  | _, _, _, _, .bareArm _ _ hl _ h, hs, _, he => by
    obtain ⟨b1, b2, e1, e2, rfl⟩ := cat_inv he
    cases hs with
    | union hd hb _ =>
      rw [List.length_append]
      exact (inSize_exact (unsigned_length e1)).add (InSize.arm (h.size (hd _ (.inl ⟨_, hl⟩)) e2) (hb _ (.inl ⟨_, hl⟩)))
  | _, _, _, _, .gap hg _ _ _, hs, _, he => by
    obtain ⟨b1, b2, e1, e2, rfl⟩ := cat_inv he
    cases e2
    cases hs with
    | union hd hb h0 =>
      rw [List.append_nil]
      exact inSize_word (h0 hg) (unsigned_length e1)
  | _, _, _, _, .next _ _ hdf _ _ h, hs, _, he => by
    obtain ⟨b1, b2, e1, e2, rfl⟩ := cat_inv he
    cases hs with
    | union hd hb _ =>
      rw [List.length_append]
      exact (inSize_exact (unsigned_length e1)).add (InSize.arm (h.size (hd _ (.inr hdf)) e2) (hb _ (.inr hdf)))
  | _, _, _, _, .default _ hdf _ hk _ h, hs, _, he => by
    obtain ⟨b1, b2, e1, e2, rfl⟩ := cat_inv he
    cases hs with
    | union hd hb _ =>
      rw [List.length_append]
      exact (inSize_exact (disc_encode hk e1)).add (InSize.arm (h.size (hd _ (.inr hdf)) e2) (hb _ (.inr hdf)))

theorem DeclaredL.size : ∀ {d x lo hi}, DeclaredL ds L d x → DeclSize ds L.unionGaps d lo hi →
    ∀ {bs}, Rfc.encode x = some bs → InSize lo hi bs.length
  | _, _, _, _, .variable h, hs, _, he => by cases hs with | «variable» hs => exact h.size hs he
  | _, _, _, _, .fixedArray h1 h, hs, _, he => by
    cases hs with
    | fixedArray h1' hs =>
      have := stands_unique h1 h1'
      obtain rfl := Int.ofNat.inj this
      exact h.size hs he
  | _, _, _, _, .variableArray _ _, hs, _, he => by
    obtain ⟨b1, b2, e1, e2, rfl⟩ := cat_inv he
    cases hs
    refine inSize_from ?_
    rw [List.length_append, unsigned_length e1]
    omega
  | _, _, _, _, .opaqueFixed h1, hs, _, he => by
    cases hs with
    | opaqueFixed h1' =>
      have := stands_unique h1 h1'
      obtain rfl := Int.ofNat.inj this
      cases he
      refine inSize_exact ?_
      simp only [Rfc.zeroPad, List.length_append, List.length_replicate]
      omega
  | _, _, _, _, .opaqueVar _, hs, _, he => by
    obtain ⟨b1, b2, e1, e2, rfl⟩ := cat_inv he
    cases hs
    refine inSize_from ?_
    rw [List.length_append, unsigned_length e1]
    omega
  | _, _, _, _, .string _, hs, _, he => by
    obtain ⟨b1, b2, e1, e2, rfl⟩ := cat_inv he
    cases hs
    refine inSize_from ?_
    rw [List.length_append, unsigned_length e1]
    omega
  | _, _, _, _, .absent, hs, _, he => by
    cases hs with
    | optional hs => exact (inSize_word rfl (signed_length he)).least (Nat.le_refl _)
  | _, _, _, _, .present h, hs, _, he => by
    obtain ⟨b1, b2, e1, e2, rfl⟩ := cat_inv he
    cases hs with
    | optional hs =>
      rw [List.length_append]
      exact ((inSize_exact (signed_length e1)).add (h.size hs e2)).least (Nat.le_add_right _ _)
  | _, _, _, _, .void, hs, _, he => by cases hs; cases he; exact inSize_exact rfl

theorem EachL.size : ∀ {ts xs lo hi}, EachL ds L ts xs → TypeSize ds L.unionGaps ts lo hi →
    ∀ {bs}, Rfc.encodeAll xs = some bs → InSize (xs.length * lo) (hi.map (xs.length * ·)) bs.length
  | _, _, _, _, .nil, _, _, he => by
    cases he
    refine ⟨by simp, fun h _ => by simp⟩
  | _, _, _, _, .cons h h', hs, _, he => by
    obtain ⟨b1, b2, e1, e2, rfl⟩ := cat_inv he
    rw [List.length_append]
    exact (h.size hs e1).one_more (h'.size hs e2)

theorem MembersL.size : ∀ {ms xs lo hi}, MembersL ds L ms xs → MemberSizes ds L.unionGaps ms lo hi →
    ∀ {bs}, Rfc.encodeAll xs = some bs → InSize lo hi bs.length
  | _, _, _, _, .nil, hs, _, he => by cases hs; cases he; exact inSize_exact rfl
  | _, _, _, _, .cons h h', hs, _, he => by
    obtain ⟨b1, b2, e1, e2, rfl⟩ := cat_inv he
    cases hs with
    | cons hs hs' =>
      rw [List.length_append]
      exact (h.size hs e1).add (h'.size hs' e2)
end

end Xdr.Rpcgen
