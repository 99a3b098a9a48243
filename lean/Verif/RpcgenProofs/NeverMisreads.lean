import Verif.Spec.AcceptedForm
import Verif.Spec.OldReader
import Verif.RpcgenProofs.FormInv
import Verif.RpcgenProofs.Union
import Verif.RpcgenProofs.EndToEnd
/-! # Lemmas: what an earlier version makes of the bytes of a later one -/

namespace Xdr.Rpcgen

open Rfc (XVal)
open Wire (Padding)

/-- Two texts with a common front of the same length. -/
theorem front_eq {a b r s : Bytes} (h : a ++ r = b ++ s) (hl : a.length = b.length) : a = b ∧ r = s :=
  List.append_inj h hl

theorem split_eq {a b a' b' r r' : Bytes} (h : (a ++ b) ++ r = (a' ++ b') ++ r') (hl : a.length = a'.length) :
    a = a' ∧ b ++ r = b' ++ r' := by
  rw [List.append_assoc, List.append_assoc] at h
  exact front_eq h hl

theorem beBytes_length (k n : Nat) : (Rfc.beBytes k n).length = k := by
  induction k generalizing n with
  | zero => rfl
  | succ k ih => simp [Rfc.beBytes, ih]

theorem signed_length {k : Nat} {v : Int} {bs : Bytes} (h : Rfc.signed k v = some bs) : bs.length = k := by
  unfold Rfc.signed at h
  split at h
  · cases h; exact beBytes_length _ _
  · cases h

theorem unsigned_length {k v : Nat} {bs : Bytes} (h : Rfc.unsigned k v = some bs) : bs.length = k := by
  unfold Rfc.unsigned at h
  split at h
  · cases h; exact beBytes_length _ _
  · cases h

theorem unsigned_word {w : Nat} {bs : Bytes} (h : Rfc.unsigned 4 w = some bs) : w < 2 ^ 32 ∧ bs = Wire.word w := by
  unfold Rfc.unsigned at h
  split at h
  · next hw => cases h; exact ⟨hw, rfl⟩
  · cases h

theorem word_unsigned {w : Nat} (h : w < 2 ^ 32) : Rfc.unsigned 4 w = some (Wire.word w) := by
  unfold Rfc.unsigned
  rw [if_pos h]
  rfl

theorem signed_as_word {k : Int} {bs : Bytes} (h : Rfc.signed 4 k = some bs) :
    -2147483648 ≤ k ∧ k < 2147483648 ∧ ∃ w : Nat, w < 2 ^ 32 ∧ (w : Int) = k % 4294967296 ∧ bs = Wire.word w := by
  have e : (2 ^ (8 * 4) : Int) = 4294967296 := by decide
  have e' : (2 ^ (8 * 4 - 1) : Int) = 2147483648 := by decide
  unfold Rfc.signed at h
  rw [e, e'] at h
  split at h
  · next hr =>
    cases h
    exact ⟨hr.1, hr.2, (k % 4294967296).toNat, by omega, by omega, rfl⟩
  · cases h

theorem word_signed {k : Int} {w : Nat} (h1 : -2147483648 ≤ k) (h2 : k < 2147483648) (h3 : (w : Int) = k % 4294967296) :
    Rfc.signed 4 k = some (Wire.word w) := by
  have e : (2 ^ (8 * 4) : Int) = 4294967296 := by decide
  have e' : (2 ^ (8 * 4 - 1) : Int) = 2147483648 := by decide
  unfold Rfc.signed
  rw [e, e', if_pos ⟨h1, h2⟩, ← h3]
  rfl

/-- A discriminant written as a word below 2³¹ is that number. -/
theorem discriminant_word {d : XVal} {k : Int} {w : Nat} (h : discriminant d = some k) (hw : w < 2 ^ 31)
    (he : Rfc.encode d = some (Wire.word w)) : k = w := by
  have sg : ∀ j, Rfc.signed 4 j = some (Wire.word w) → j = w := by
    intro j hj
    obtain ⟨h1, h2, w', h3, h4, h5⟩ := signed_as_word hj
    have := word_inj (by omega) h3 h5
    omega
  cases d with
  | int j => cases h; exact sg _ he
  | enum j => cases h; exact sg _ he
  | uint j =>
    cases h
    obtain ⟨h1, h2⟩ := unsigned_word he
    have := word_inj (by omega) h1 h2
    omega
  | bool b => cases h; exact sg _ he
  | _ => cases h

theorem discriminant_length {d : XVal} {k : Int} (h : discriminant d = some k) {bs : Bytes}
    (he : Rfc.encode d = some bs) : bs.length = 4 := by
  cases d with
  | int j => exact signed_length he
  | enum j => exact signed_length he
  | uint j => exact unsigned_length he
  | bool b => exact signed_length he
  | _ => cases h

theorem beBytes_inj {k a b : Nat} (ha : a < 2 ^ (8 * k)) (hb : b < 2 ^ (8 * k)) (h : Rfc.beBytes k a = Rfc.beBytes k b) :
    a = b := by
  induction k generalizing a b with
  | zero => simp at ha hb; omega
  | succ k ih =>
    have e : 2 ^ (8 * (k + 1)) = 2 ^ (8 * k) * 256 := by rw [Nat.mul_add, Nat.pow_add]
    rw [e] at ha hb
    obtain ⟨h1, h2⟩ := List.append_inj h (by simp only [beBytes_length])
    have h3 := ih (Nat.div_lt_of_lt_mul (by rwa [Nat.mul_comm])) (Nat.div_lt_of_lt_mul (by rwa [Nat.mul_comm])) h1
    have h4 := congrArg UInt8.toNat (List.cons.inj h2).1
    simp only [UInt8.toNat_ofNat'] at h4
    omega

theorem signed_inj {k : Nat} (hk : 0 < k) {a b : Int} {bs : Bytes} (h : Rfc.signed k a = some bs)
    (h' : Rfc.signed k b = some bs) : a = b := by
  unfold Rfc.signed at h h'
  split at h <;> split at h'
  · next h1 h2 =>
    have e : (2 ^ (8 * k) : Int) = 2 * 2 ^ (8 * k - 1) := by
      conv => lhs; rw [show 8 * k = (8 * k - 1) + 1 by omega, Int.pow_succ, Int.mul_comm]
    cases h
    simp only [Option.some.injEq] at h'
    have hp : (0 : Int) < 2 ^ (8 * k - 1) := Int.pow_pos (by decide)
    have r1 := Int.emod_nonneg a (b := (2 ^ (8 * k) : Int)) (by omega)
    have r2 := Int.emod_lt_of_pos a (b := (2 ^ (8 * k) : Int)) (by omega)
    have r3 := Int.emod_nonneg b (b := (2 ^ (8 * k) : Int)) (by omega)
    have r4 := Int.emod_lt_of_pos b (b := (2 ^ (8 * k) : Int)) (by omega)
    have c : ((2 ^ (8 * k) : Nat) : Int) = (2 ^ (8 * k) : Int) := by simp
    have h5 := beBytes_inj (by omega) (by omega) h'
    have h6 : b % (2 ^ (8 * k) : Int) = a % (2 ^ (8 * k) : Int) := by omega
    rw [e] at h6
    generalize (2 ^ (8 * k - 1) : Int) = p at *
    have h7 : (2 * p) ∣ (a - b) := Int.dvd_of_emod_eq_zero (by rw [Int.sub_emod, h6, Int.sub_self, Int.zero_emod])
    obtain ⟨q, hq⟩ := h7
    have : q = 0 := by
      rcases Int.lt_trichotomy q 0 with hq0 | hq0 | hq0
      · have := Int.mul_le_mul_of_nonneg_left (show q ≤ -1 by omega) (show 0 ≤ 2 * p by omega)
        omega
      · exact hq0
      · have := Int.mul_le_mul_of_nonneg_left (show 1 ≤ q by omega) (show 0 ≤ 2 * p by omega)
        omega
    subst this
    omega
  · cases h'
  · cases h
  · cases h

theorem unsigned_inj {k a b : Nat} {bs : Bytes} (h : Rfc.unsigned k a = some bs) (h' : Rfc.unsigned k b = some bs) :
    a = b := by
  unfold Rfc.unsigned at h h'
  split at h <;> split at h'
  · next h1 h2 =>
    cases h
    simp only [Option.some.injEq] at h'
    exact (beBytes_inj h2 h1 h').symm
  · cases h'
  · cases h
  · cases h

theorem padding_length {n : Nat} {p : Bytes} (h : Padding n p) : p.length = (4 - n % 4) % 4 := by
  obtain ⟨h1, h2⟩ := h
  omega

theorem padded_length {bs p : Bytes} (h : Padding bs.length p) {bs' : Bytes} (hl : bs.length = bs'.length) :
    (bs ++ p).length = (Rfc.zeroPad bs').length := by
  simp only [Rfc.zeroPad, List.length_append, List.length_replicate, padding_length h, hl]

/-- Data with padding against padded data of the same length. -/
theorem padded_eq {bs p bs' r r' : Bytes} (hp : Padding bs.length p) (hl : bs.length = bs'.length)
    (h : (bs ++ p) ++ r = Rfc.zeroPad bs' ++ r') : bs ++ p = Rfc.zeroPad bs' ∧ bs = bs' := by
  obtain ⟨h1, -⟩ := front_eq h (padded_length hp hl)
  exact ⟨h1, (front_eq h1 hl).1⟩

/-- What the earlier program reads from these bytes is what was written. -/
def Same (x : XVal) (bs : Bytes) (x' : XVal) (bs' : Bytes) : Prop :=
  bs = bs' ∧ Rfc.encode x = some bs ∧ bare x = bare x'

theorem bare_discriminant (x : XVal) : discriminant (bare x) = discriminant x := by
  cases x <;> rfl

theorem Same.discriminant {x x' : XVal} {bs bs' : Bytes} (h : Same x bs x' bs') {k k' : Int}
    (hk : discriminant x = some k) (hk' : discriminant x' = some k') : k = k' := by
  have := congrArg Rpcgen.discriminant h.2.2
  rw [bare_discriminant, bare_discriminant, hk, hk'] at this
  exact Option.some.inj this

theorem bare_union {d d' x x' : XVal} {k : Int} (hd : discriminant d = some k) (hd' : discriminant d' = some k)
    (h : bare x = bare x') : bare (.union d x) = bare (.union d' x') := by
  simp only [bare, hd, hd', h]

theorem Distinct.label {ds : List Definition} (h : Distinct ds) {u nm : Str} {b : UnionBody} {cond : TypeSpecifier}
    (hu : .type (.union u b) ∈ ds) (hc : b.cond = .variable cond nm) {l l' : Value × Declaration}
    (hl : l ∈ b.labels) (hl' : l' ∈ b.labels) {k : Int} (hk : Selects ds cond l.1 k) (hk' : Selects ds cond l'.1 k) :
    l = l' := by
  obtain ⟨cond', nm', ks, hc', hlab⟩ := h.unions u b hu
  rw [hc] at hc'
  cases hc'
  have key : ∀ l ∈ b.labels, Selects ds cond l.1 k → (l, k) ∈ b.labels.zip ks := by
    intro l hl hk
    obtain ⟨i, hi, rfl⟩ := List.mem_iff_getElem.1 hl
    have hlen := hlab.selects.length_eq
    have hz : (b.labels[i], ks[i]'(hlen ▸ hi)) ∈ b.labels.zip ks :=
      List.mem_iff_getElem.2 ⟨i, by simp [List.length_zip]; omega, by simp⟩
    have := forall₂_zip hlab.selects hz
    rw [this.unique h.unambiguous hk] at hz
    exact hz
  exact zip_unique hlab.distinct (key l hl hk) (key l' hl' hk')

section
variable {ds ds' : List Definition} {cfg : Config} (hv : Versions true ds ds') (hc : Careful ds cfg)
  (hd : Distinct ds')
include hv hc hd
set_option linter.unusedSectionVars false

mutual
theorem TypedF.same : ∀ {ts x bs}, TypedF ds cfg ts x bs → ∀ {x' bs' r r'}, Typed ds' true ts x' →
    Rfc.encode x' = some bs' → bs ++ r = bs' ++ r' → Same x bs x' bs'
  | _, _, _, .int h, _, _, _, _, h', he, heq => by
    cases h'
    obtain ⟨rfl, -⟩ := front_eq heq ((signed_length h).trans (signed_length he).symm)
    exact ⟨rfl, h, by rw [signed_inj (by decide) h he]⟩
  | _, _, _, .uint h, _, _, _, _, h', he, heq => by
    cases h'
    obtain ⟨rfl, -⟩ := front_eq heq ((unsigned_length h).trans (unsigned_length he).symm)
    exact ⟨rfl, h, by rw [unsigned_inj h he]⟩
  | _, _, _, .hyper h, _, _, _, _, h', he, heq => by
    cases h'
    obtain ⟨rfl, -⟩ := front_eq heq ((signed_length h).trans (signed_length he).symm)
    exact ⟨rfl, h, by rw [signed_inj (by decide) h he]⟩
  | _, _, _, .uhyper h, _, _, _, _, h', he, heq => by
    cases h'
    obtain ⟨rfl, -⟩ := front_eq heq ((unsigned_length h).trans (unsigned_length he).symm)
    exact ⟨rfl, h, by rw [unsigned_inj h he]⟩
  | _, _, _, .float h, _, _, _, _, h', he, heq => by
    cases h'
    obtain ⟨rfl, -⟩ := front_eq heq ((unsigned_length h).trans (unsigned_length he).symm)
    exact ⟨rfl, h, by rw [unsigned_inj h he]⟩
  | _, _, _, .double h, _, _, _, _, h', he, heq => by
    cases h'
    obtain ⟨rfl, -⟩ := front_eq heq ((unsigned_length h).trans (unsigned_length he).symm)
    exact ⟨rfl, h, by rw [unsigned_inj h he]⟩
  | _, _, _, .bool h, _, _, _, _, h', he, heq => by
    cases h' with
    | @bool b =>
      obtain ⟨rfl, -⟩ := front_eq heq ((word_length _).trans (signed_length he).symm)
      obtain ⟨-, -, w', h3, h4, h5⟩ := signed_as_word he
      have := word_inj h h3 h5
      subst this
      cases b with
      | true =>
        have hw : _ = 1 := Int.ofNat.inj (h4.trans (by decide : _ = ((1 : Nat) : Int)))
        subst hw
        exact ⟨rfl, he, rfl⟩
      | false =>
        have hw : _ = 0 := Int.ofNat.inj (h4.trans (by decide : _ = ((0 : Nat) : Int)))
        subst hw
        exact ⟨rfl, he, rfl⟩
  | _, _, _, .char (k := k) h h1 h2 h3, _, _, _, _, h', he, heq => by
    cases h' with
    | @char k' h1' h2' =>
      obtain ⟨rfl, -⟩ := front_eq heq ((word_length _).trans (signed_length he).symm)
      obtain ⟨-, -, w', h4, h5, h6⟩ := signed_as_word he
      have := word_inj h h4 h6
      subst this
      have : k = k' := by omega
      subst this
      exact ⟨rfl, he, rfl⟩
  | _, _, _, .uchar h, _, _, _, _, h', he, heq => by
    cases h' with
    | @uchar k' h1' =>
      obtain ⟨rfl, -⟩ := front_eq heq ((word_length _).trans (unsigned_length he).symm)
      obtain ⟨h4, h6⟩ := unsigned_word he
      have := word_inj h h4 h6
      subst this
      rw [Nat.mod_eq_of_lt h1']
      exact ⟨rfl, he, rfl⟩
  | _, _, _, .short (k := k) h h1 h2 h3, _, _, _, _, h', he, heq => by
    cases h' with
    | @short k' h1' h2' =>
      obtain ⟨rfl, -⟩ := front_eq heq ((word_length _).trans (signed_length he).symm)
      obtain ⟨-, -, w', h4, h5, h6⟩ := signed_as_word he
      have := word_inj h h4 h6
      subst this
      have : k = k' := by omega
      subst this
      exact ⟨rfl, he, rfl⟩
  | _, _, _, .ushort h, _, _, _, _, h', he, heq => by
    cases h' with
    | @ushort k' h1' =>
      obtain ⟨rfl, -⟩ := front_eq heq ((word_length _).trans (unsigned_length he).symm)
      obtain ⟨h4, h6⟩ := unsigned_word he
      have := word_inj h h4 h6
      subst this
      rw [Nat.mod_eq_of_lt h1']
      exact ⟨rfl, he, rfl⟩
  | _, _, _, .name h1 h2, _, _, _, _, h', he, heq => by
    cases h' with
    | name h1' h2' =>
      obtain ⟨t', h3, h4⟩ := hv _ _ h1
      rw [h1'] at h3
      cases h3
      exact DefinedF.same (typeOf_mem h1).1 (typeOf_mem h1').1 h2 h4 h2' he heq

theorem DefinedF.same : ∀ {t t' x bs}, .type t ∈ ds → .type t' ∈ ds' → DefinedF ds cfg t x bs →
    DefLater true ds ds' t t' → ∀ {x' bs' r r'}, Defined ds' true t' x' →
    Rfc.encode x' = some bs' → bs ++ r = bs' ++ r' → Same x bs x' bs'
  | _, _, _, _, _, _, .typedef h, hl, _, _, _, _, h', he, heq => by
    cases hl with
    | typedef hl =>
      cases h' with
      | typedef h' => exact DeclaredF.same h hl h' he heq
  | _, _, _, _, _, _, .enum _ _ h, hl, _, _, _, _, h', he, heq => by
    cases hl with
    | enum _ =>
      cases h' with
      | enum _ _ =>
        obtain ⟨rfl, -⟩ := front_eq heq ((signed_length h).trans (signed_length he).symm)
        exact ⟨rfl, h, by rw [signed_inj (by decide) h he]⟩
  | _, _, _, _, _, _, .enumGap _ _ _ _ _ h, hl, _, _, _, _, h', he, heq => by
    cases hl with
    | enum _ =>
      cases h' with
      | enum _ _ =>
        obtain ⟨rfl, -⟩ := front_eq heq ((signed_length h).trans (signed_length he).symm)
        exact ⟨rfl, h, by rw [signed_inj (by decide) h he]⟩
  | _, _, _, _, _, _, .enumOther hi _ _ _ _ _, _, _, _, _, _, _, _, _ => by
    rw [hc.enums] at hi
    cases hi
  | _, _, _, _, _, _, .struct h, hl, _, _, _, _, h', he, heq => by
    cases hl with
    | struct hl =>
      cases h' with
      | struct h' =>
        obtain ⟨h1, h2, h3⟩ := MembersF.same h hl h' he heq
        exact ⟨h1, h2, by simp only [bare, h3]⟩
  | _, _, _, _, hm, hm', .arm _ hb hmem hsel h1 hk h2, hl, _, _, _, _, h', he, heq => by
    cases hl with
    | union hb1 hb' hls _ =>
      rw [hb] at hb1
      cases hb1
      obtain ⟨l', hl', hs', hdl⟩ := hls _ hmem
      cases h' with
      | arm hb2 hmem' hsel' h1' hk' h2' =>
        rw [hb'] at hb2
        cases hb2
        obtain ⟨b, c, e1, e2, rfl⟩ := Xdr.cat_some he
        rw [List.append_assoc, List.append_assoc] at heq
        obtain ⟨rfl, e3, e4⟩ := TypedF.same h1 h1' e1 heq
        cases Same.discriminant ⟨rfl, e3, e4⟩ hk hk'
        cases hd.label hm' hb' hl' hmem' (hs' _ hsel) hsel'
        obtain ⟨rfl, e5, e6⟩ := DeclaredF.same h2 hdl h2' e2 (List.append_cancel_left heq)
        exact ⟨rfl, by simp only [Rfc.encode, e3, e5, Rfc.cat], bare_union hk hk' e6⟩
      | default _ hb2 _ h1' hk' hno' h2' =>
        rw [hb'] at hb2
        cases hb2
        obtain ⟨b, c, e1, e2, rfl⟩ := Xdr.cat_some he
        rw [List.append_assoc, List.append_assoc] at heq
        obtain ⟨rfl, e3, e4⟩ := TypedF.same h1 h1' e1 heq
        cases Same.discriminant ⟨rfl, e3, e4⟩ hk hk'
        exact absurd (hs' _ hsel) (hno' _ hl')
  | _, _, _, _, hm, hm', .bareArm hbare hb hmem hsel h2, hl, _, _, _, _, h', he, heq => by
    cases hl with
    | union hb1 hb' hls _ =>
      have hlt := hc.labels hbare _ _ _ _ hm hb _ hmem _ hsel
      rw [hb] at hb1
      cases hb1
      obtain ⟨l', hl', hs', hdl⟩ := hls _ hmem
      cases h' with
      | arm hb2 hmem' hsel' h1' hk' h2' =>
        rw [hb'] at hb2
        cases hb2
        obtain ⟨b, c, e1, e2, rfl⟩ := Xdr.cat_some he
        rw [List.append_assoc, List.append_assoc] at heq
        obtain ⟨rfl, -⟩ := front_eq heq ((word_length _).trans (discriminant_length hk' e1).symm)
        cases discriminant_word hk' (by omega) e1
        cases hd.label hm' hb' hl' hmem' (hs' _ hsel) hsel'
        obtain ⟨rfl, e5, e6⟩ := DeclaredF.same h2 hdl h2' e2 (List.append_cancel_left heq)
        refine ⟨rfl, ?_, bare_union rfl hk' e6⟩
        simp only [Rfc.encode, e5]
        rw [word_unsigned (by omega)]
        rfl
      | default _ hb2 _ h1' hk' hno' h2' =>
        rw [hb'] at hb2
        cases hb2
        obtain ⟨b, c, e1, e2, rfl⟩ := Xdr.cat_some he
        rw [List.append_assoc, List.append_assoc] at heq
        obtain ⟨rfl, -⟩ := front_eq heq ((word_length _).trans (discriminant_length hk' e1).symm)
        cases discriminant_word hk' (by omega) e1
        exact absurd (hs' _ hsel) (hno' _ hl')
  | _, _, _, _, hm, _, .gap hg hb hno hr, _, _, _, _, _, _, _, _ => by
    obtain ⟨l, hl, hs⟩ := hc.gaps hg _ _ _ _ hm hb _ hr
    exact absurd hs (hno l hl)
  | _, _, _, _, _, _, .next _ hb hdf hlt hnext h2, hl, _, _, _, _, h', he, heq => by
    cases hl with
    | union hb1 hb' _ hls =>
      rw [hb] at hb1
      cases hb1
      obtain ⟨d', hd', hdl, hback⟩ := hls rfl _ hdf
      cases h' with
      | arm hb2 hmem' hsel' h1' hk' h2' =>
        rw [hb'] at hb2
        cases hb2
        obtain ⟨b, c, e1, e2, rfl⟩ := Xdr.cat_some he
        rw [List.append_assoc, List.append_assoc] at heq
        obtain ⟨rfl, -⟩ := front_eq heq ((word_length _).trans (discriminant_length hk' e1).symm)
        cases discriminant_word hk' (by omega) e1
        obtain ⟨l, hl, hs⟩ := hback _ hmem' _ hsel'
        exact absurd ((hnext _).1 (.inl ⟨l, hl, _, hs, Int.le_refl _⟩)) (Nat.lt_irrefl _)
      | default _ hb2 hdf' h1' hk' hno' h2' =>
        rw [hb'] at hb2
        cases hb2
        rw [hd'] at hdf'
        cases hdf'
        obtain ⟨b, c, e1, e2, rfl⟩ := Xdr.cat_some he
        rw [List.append_assoc, List.append_assoc] at heq
        obtain ⟨rfl, -⟩ := front_eq heq ((word_length _).trans (discriminant_length hk' e1).symm)
        cases discriminant_word hk' (by omega) e1
        obtain ⟨rfl, e5, e6⟩ := DeclaredF.same h2 hdl h2' e2 (List.append_cancel_left heq)
        refine ⟨rfl, ?_, bare_union rfl hk' e6⟩
        simp only [Rfc.encode, e5]
        rw [word_unsigned (by omega)]
        rfl
  | _, _, _, _, hm, hm', .default _ hb hdf h1 hk hno h2, hl, _, _, _, _, h', he, heq => by
    cases hl with
    | union hb1 hb' _ hls =>
      rw [hb] at hb1
      cases hb1
      obtain ⟨d', hd', hdl, hback⟩ := hls rfl _ hdf
      cases h' with
      | arm hb2 hmem' hsel' h1' hk' h2' =>
        rw [hb'] at hb2
        cases hb2
        obtain ⟨b, c, e1, e2, rfl⟩ := Xdr.cat_some he
        rw [List.append_assoc, List.append_assoc] at heq
        obtain ⟨rfl, e3, e4⟩ := TypedF.same h1 h1' e1 heq
        cases Same.discriminant ⟨rfl, e3, e4⟩ hk hk'
        obtain ⟨l, hl, hs⟩ := hback _ hmem' _ hsel'
        exact absurd hs (hno l hl)
      | default _ hb2 hdf' h1' hk' hno' h2' =>
        rw [hb'] at hb2
        cases hb2
        rw [hd'] at hdf'
        cases hdf'
        obtain ⟨b, c, e1, e2, rfl⟩ := Xdr.cat_some he
        rw [List.append_assoc, List.append_assoc] at heq
        obtain ⟨rfl, e3, e4⟩ := TypedF.same h1 h1' e1 heq
        cases Same.discriminant ⟨rfl, e3, e4⟩ hk hk'
        obtain ⟨rfl, e5, e6⟩ := DeclaredF.same h2 hdl h2' e2 (List.append_cancel_left heq)
        exact ⟨rfl, by simp only [Rfc.encode, e3, e5, Rfc.cat], bare_union hk hk' e6⟩

theorem DeclaredF.same : ∀ {d d' x bs}, DeclaredF ds cfg d x bs → DeclLater ds ds' d d' →
    ∀ {x' bs' r r'}, Declared ds' true d' x' → Rfc.encode x' = some bs' → bs ++ r = bs' ++ r' → Same x bs x' bs'
  | _, _, _, _, .variable h, hl, _, _, _, _, h', he, heq => by
    cases hl
    cases h' with
    | «variable» h' => exact TypedF.same h h' he heq
  | _, _, _, _, .fixedArray hn h, hl, _, _, _, _, h', he, heq => by
    cases hl with
    | fixedArray hs =>
      cases h' with
      | fixedArray hn' h' =>
        have hlen := stands_unique (hs _ hn) hn'
        obtain ⟨h1, h2, h3⟩ := EachF.same h h' (by omega) he heq
        exact ⟨h1, h2, by simp only [bare, h3]⟩
  | _, _, _, _, .variableArray hn h, hl, _, _, _, _, h', he, heq => by
    cases hl
    cases h' with
    | variableArray hn' _ h' =>
      obtain ⟨b, c, e1, e2, rfl⟩ := Xdr.cat_some he
      obtain ⟨-, rfl⟩ := unsigned_word e1
      obtain ⟨e3, heq⟩ := split_eq heq (by simp only [word_length])
      have hlen := word_inj hn hn' e3
      obtain ⟨rfl, h2, h3⟩ := EachF.same h h' hlen e2 heq
      refine ⟨by rw [e3], ?_, by simp only [bare, h3]⟩
      simp only [Rfc.encode, h2, word_unsigned hn]
      rfl
  | _, _, _, _, .opaqueFixed hn hp, hl, _, _, _, _, h', he, heq => by
    cases hl with
    | opaqueFixed hs =>
      cases h' with
      | opaqueFixed hn' =>
        have hlen := stands_unique (hs _ hn) hn'
        cases he
        obtain ⟨h1, rfl⟩ := padded_eq hp (by omega) heq
        exact ⟨h1, by rw [h1]; rfl, rfl⟩
  | _, _, _, _, .opaqueVar hn hp, hl, _, _, _, _, h', he, heq => by
    cases hl
    cases h' with
    | opaqueVar hn' _ =>
      obtain ⟨b, c, e1, e2, rfl⟩ := Xdr.cat_some he
      obtain ⟨-, rfl⟩ := unsigned_word e1
      obtain ⟨e3, heq⟩ := split_eq heq (by simp only [word_length])
      have hlen := word_inj hn hn' e3
      cases e2
      obtain ⟨h1, rfl⟩ := padded_eq hp hlen heq
      exact ⟨by rw [h1], by rw [h1]; exact he, rfl⟩
  | _, _, _, _, .string hn hp, hl, _, _, _, _, h', he, heq => by
    cases hl
    cases h' with
    | string hn' _ =>
      obtain ⟨b, c, e1, e2, rfl⟩ := Xdr.cat_some he
      obtain ⟨-, rfl⟩ := unsigned_word e1
      obtain ⟨e3, heq⟩ := split_eq heq (by simp only [word_length])
      have hlen := word_inj hn hn' e3
      cases e2
      obtain ⟨h1, h2⟩ := padded_eq hp hlen heq
      exact ⟨by rw [h1, e3], by rw [h1, h2]; exact he, by rw [h2]⟩
  | _, _, _, _, .absent, hl, _, _, _, _, h', he, heq => by
    cases hl
    cases h' with
    | absent =>
      obtain ⟨rfl, -⟩ := front_eq heq ((word_length _).trans (signed_length he).symm)
      exact ⟨rfl, he, rfl⟩
    | present _ =>
      obtain ⟨b, c, e1, e2, rfl⟩ := Xdr.cat_some he
      rw [List.append_assoc] at heq
      obtain ⟨rfl, -⟩ := front_eq heq ((word_length _).trans (signed_length e1).symm)
      obtain ⟨-, -, w, h3, h4, h5⟩ := signed_as_word e1
      have := word_inj (by decide) h3 h5
      subst this
      exact absurd h4 (by decide)
  | _, _, _, _, .present hw hw0 h, hl, _, _, _, _, h', he, heq => by
    cases hl
    cases h' with
    | absent =>
      rw [List.append_assoc] at heq
      obtain ⟨rfl, -⟩ := front_eq heq ((word_length _).trans (signed_length he).symm)
      obtain ⟨-, -, w, h3, h4, h5⟩ := signed_as_word he
      have := word_inj hw h3 h5
      subst this
      exact absurd (Int.ofNat.inj (h4.trans (by decide : _ = ((0 : Nat) : Int)))) hw0
    | present h' =>
      obtain ⟨b, c, e1, e2, rfl⟩ := Xdr.cat_some he
      obtain ⟨rfl, heq'⟩ := split_eq heq ((word_length _).trans (signed_length e1).symm)
      obtain ⟨rfl, e3, e4⟩ := TypedF.same h h' e2 heq'
      refine ⟨rfl, ?_, by simp only [bare, e4]⟩
      simp only [Rfc.encode, e1, e3]
      rfl
  | _, _, _, _, .void, hl, _, _, _, _, h', he, heq => by
    cases hl
    cases h'
    cases he
    exact ⟨rfl, rfl, rfl⟩

theorem EachF.same : ∀ {ts xs bs}, EachF ds cfg ts xs bs → ∀ {xs' bs' r r'}, Each ds' true ts xs' →
    xs.length = xs'.length → Rfc.encodeAll xs' = some bs' → bs ++ r = bs' ++ r' →
    bs = bs' ∧ Rfc.encodeAll xs = some bs ∧ bareAll xs = bareAll xs'
  | _, _, _, .nil, _, _, _, _, h', hlen, he, heq => by
    cases h' with
    | nil => cases he; exact ⟨rfl, rfl, rfl⟩
    | cons => cases hlen
  | _, _, _, .cons h hs, _, _, _, _, h', hlen, he, heq => by
    cases h' with
    | nil => cases hlen
    | cons h' hs' =>
      obtain ⟨b, c, e1, e2, rfl⟩ := Xdr.cat_some he
      rw [List.append_assoc, List.append_assoc] at heq
      obtain ⟨rfl, e3, e5⟩ := TypedF.same h h' e1 heq
      obtain ⟨rfl, e4, e6⟩ := EachF.same hs hs' (Nat.succ.inj hlen) e2 (List.append_cancel_left heq)
      refine ⟨rfl, ?_, by simp only [bareAll, e5, e6]⟩
      simp only [Rfc.encodeAll, e3, e4]
      rfl

theorem MembersF.same : ∀ {ms ms' xs bs}, MembersF ds cfg ms xs bs → List.Forall₂ (DeclLater ds ds') ms ms' →
    ∀ {xs' bs' r r'}, Members ds' true ms' xs' → Rfc.encodeAll xs' = some bs' → bs ++ r = bs' ++ r' →
    bs = bs' ∧ Rfc.encodeAll xs = some bs ∧ bareAll xs = bareAll xs'
  | _, _, _, _, .nil, hl, _, _, _, _, h', he, heq => by
    cases hl
    cases h'
    cases he
    exact ⟨rfl, rfl, rfl⟩
  | _, _, _, _, .cons h hs, hl, _, _, _, _, h', he, heq => by
    cases hl with
    | cons hl hls =>
      cases h' with
      | cons h' hs' =>
        obtain ⟨b, c, e1, e2, rfl⟩ := Xdr.cat_some he
        rw [List.append_assoc, List.append_assoc] at heq
        obtain ⟨rfl, e3, e5⟩ := DeclaredF.same h hl h' e1 heq
        obtain ⟨rfl, e4, e6⟩ := MembersF.same hs hls hs' e2 (List.append_cancel_left heq)
        refine ⟨rfl, ?_, by simp only [bareAll, e5, e6]⟩
        simp only [Rfc.encodeAll, e3, e4]
        rfl
end
end

end Xdr.Rpcgen
