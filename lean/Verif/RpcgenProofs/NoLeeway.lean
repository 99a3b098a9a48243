import Verif.RpcgenProofs.EndToEnd
import Verif.Spec.Accepted
/-! In a file that leaves no leeway, what a reader may give is a value of the type -/

namespace Xdr.Rpcgen

open Rfc (XVal)

section
variable {ds : List Definition} {L : Leeway}

theorem encode_disc (hn : NumberedEnums ds) {cond : TypeSpecifier} {disc : XVal} {k : Nat}
    (h : Typed ds true cond disc) (hd : discriminant disc = some (k : Int)) (hk : k < 4294967296) :
    Rfc.encode disc = Rfc.encode (.uint k) := by
  obtain ⟨b, hb⟩ := Option.isSome_iff_exists.1 (h.encodes hn)
  obtain ⟨b', hb'⟩ : ∃ b', Rfc.encode (.uint k) = some b' := by
    simp only [Rfc.encode]
    exact Option.isSome_iff_exists.1 (unsigned_some 4 (by omega))
  rw [hb, hb', encode_discriminant hd (by omega) hb, encode_discriminant (d := .uint k) rfl (by omega) hb']

mutual
theorem TypedL.same (hn : NumberedEnums ds) (ht : NoLeeway ds L)
    (hr : ∀ u b cond nm, .type (.union u b) ∈ ds → b.cond = .variable cond nm → ∀ l ∈ b.labels, ∀ k,
      Selects ds cond l.1 k → k ≤ 4294967295) :
    ∀ {ts x}, TypedL ds L ts x → ∃ y, Typed ds true ts y ∧ Rfc.encode y = Rfc.encode x
      ∧ ∀ k, discriminant x = some k → discriminant y = some k
  | _, _, .int h h' => ⟨_, .int h h', rfl, fun _ h => h⟩
  | _, _, .uint h => ⟨_, .uint h, rfl, fun _ h => h⟩
  | _, _, .hyper h h' => ⟨_, .hyper h h', rfl, fun _ h => h⟩
  | _, _, .uhyper h => ⟨_, .uhyper h, rfl, fun _ h => h⟩
  | _, _, .float h => ⟨_, .float h, rfl, fun _ h => h⟩
  | _, _, .double h => ⟨_, .double h, rfl, fun _ h => h⟩
  | _, _, .bool => ⟨_, .bool, rfl, fun _ h => h⟩
  | _, _, .char h h' => ⟨_, .char h h', rfl, fun _ h => h⟩
  | _, _, .uchar h => ⟨_, .uchar h, rfl, fun _ h => h⟩
  | _, _, .short h h' => ⟨_, .short h h', rfl, fun _ h => h⟩
  | _, _, .ushort h => ⟨_, .ushort h, rfl, fun _ h => h⟩
  | _, _, .name h1 h2 =>
    have ⟨y, h3, h4, h5⟩ := DefinedL.same hn ht hr h2 (typeOf_mem h1).1
    ⟨y, .name h1 h3, h4, h5⟩

theorem DefinedL.same (hn : NumberedEnums ds) (ht : NoLeeway ds L)
    (hr : ∀ u b cond nm, .type (.union u b) ∈ ds → b.cond = .variable cond nm → ∀ l ∈ b.labels, ∀ k,
      Selects ds cond l.1 k → k ≤ 4294967295) :
    ∀ {t x}, DefinedL ds L t x → .type t ∈ ds → ∃ y, Defined ds true t y ∧ Rfc.encode y = Rfc.encode x
      ∧ ∀ k, discriminant x = some k → discriminant y = some k
  | _, _, .typedef h1, hm =>
    have ⟨y, h3, h4, h5⟩ := DeclaredL.same hn ht hr h1 (.inl hm)
    ⟨y, .typedef h3, h4, h5⟩
  | _, _, .enum h1 h2, _ => ⟨_, .enum h1 h2, rfl, fun _ h => h⟩
  | _, _, .enumGap h1 h2 h3 h4 h5, hm =>
    have ⟨_, h6, h7⟩ := ht.enums h1 _ _ hm _ h2 _ _ h3 h4 h5
    ⟨_, .enum h6 h7, rfl, fun _ h => h⟩
  | _, _, .struct h1, hm =>
    have ⟨ys, h2, h3⟩ := MembersL.same hn ht hr h1 (fun _ hd => .inr (.inl ⟨_, _, hm, hd⟩))
    ⟨_, .struct h2, by simpa only [Rfc.encode] using h3, fun _ h => by cases h⟩
  | _, _, .arm h1 h2 h3 h4 h5 h6, hm =>
    have ⟨_, h7, h8, h9⟩ := TypedL.same hn ht hr h4
    have ⟨_, h10, h11, _⟩ := DeclaredL.same hn ht hr h6 (.inr (.inr (.inl ⟨_, _, _, hm, h2⟩)))
    ⟨_, .arm h1 h2 h3 h7 (h9 _ h5) h10, by simp only [Rfc.encode, h8, h11], fun _ h => by cases h⟩
  | _, _, .bareArm h1 h2 h3 h4 h5, hm =>
    have ⟨_, h7, h8⟩ := ht.labels h1 _ _ _ _ hm h2 _ h3 _ h4
    have ⟨_, h10, h11, _⟩ := DeclaredL.same hn ht hr h5 (.inr (.inr (.inl ⟨_, _, _, hm, h3⟩)))
    have h9 := hr _ _ _ _ hm h2 _ h3 _ h4
    ⟨_, .arm h2 h3 h4 h7 h8 h10, by
      simp only [Rfc.encode, h11, encode_disc hn h7 h8 (by omega)], fun _ h => by cases h⟩
  | _, _, .gap h1 h2 h3 h4, hm =>
    have ⟨l, h5, h6⟩ := ht.unions h1 _ _ _ _ hm h2 _ h4
    absurd h6 (h3 l h5)
  | _, _, .next h1 h2 h3 h4 h5 h6, hm =>
    have ⟨_, h7, h8⟩ := ht.defaults h1 _ _ _ _ _ hm h3 h2 _ h5
    have ⟨_, h10, h11, _⟩ := DeclaredL.same hn ht hr h6 (.inr (.inr (.inr (.inl ⟨_, _, hm, h3⟩))))
    ⟨_, .default rfl h2 h3 h7 h8 (fun l hl hs => absurd ((h5 _).1 (.inl ⟨l, hl, _, hs, Int.le_refl _⟩))
      (Nat.lt_irrefl _)) h10, by simp only [Rfc.encode, h11, encode_disc hn h7 h8 (by omega)],
      fun _ h => by cases h⟩
  | _, _, .default h1 h2 h4 h5 h3 h6, hm =>
    have ⟨_, h7, h8, h9⟩ := TypedL.same hn ht hr h4
    have ⟨_, h10, h11, _⟩ := DeclaredL.same hn ht hr h6 (.inr (.inr (.inr (.inl ⟨_, _, hm, h2⟩))))
    ⟨_, .default rfl h1 h2 h7 (h9 _ h5) h3 h10, by simp only [Rfc.encode, h8, h11], fun _ h => by cases h⟩

theorem DeclaredL.same (hn : NumberedEnums ds) (ht : NoLeeway ds L)
    (hr : ∀ u b cond nm, .type (.union u b) ∈ ds → b.cond = .variable cond nm → ∀ l ∈ b.labels, ∀ k,
      Selects ds cond l.1 k → k ≤ 4294967295) :
    ∀ {d x}, DeclaredL ds L d x → DeclIn ds d → ∃ y, Declared ds true d y ∧ Rfc.encode y = Rfc.encode x
      ∧ ∀ k, discriminant x = some k → discriminant y = some k
  | _, _, .variable h, _ =>
    have ⟨y, h1, h2, h3⟩ := TypedL.same hn ht hr h
    ⟨y, .variable h1, h2, h3⟩
  | _, _, .fixedArray h1 h2, _ =>
    have ⟨ys, h3, h4, h5⟩ := EachL.same hn ht hr h2
    ⟨_, .fixedArray (by rw [h4]; exact h1) h3, by simpa only [Rfc.encode] using h5, fun _ h => by cases h⟩
  | _, _, .variableArray h1 h2, hm =>
    have ⟨ys, h3, h4, h5⟩ := EachL.same hn ht hr h2
    ⟨_, .variableArray (by rw [h4]; exact h1) (fun _ _ h => by
      have := ht.limits _ hm
      simp only [Declaration.maximum] at this
      rw [this] at h; cases h) h3, by simp only [Rfc.encode, h4, h5], fun _ h => by cases h⟩
  | _, _, .opaqueFixed h, _ => ⟨_, .opaqueFixed h, rfl, fun _ h => h⟩
  | _, _, .opaqueVar h1, hm => ⟨_, .opaqueVar h1 (fun _ _ h => by
      have := ht.limits _ hm
      simp only [Declaration.maximum] at this
      rw [this] at h; cases h), rfl, fun _ h => h⟩
  | _, _, .string h1, hm => ⟨_, .string h1 (fun _ _ h => by
      have := ht.limits _ hm
      simp only [Declaration.maximum] at this
      rw [this] at h; cases h), rfl, fun _ h => h⟩
  | _, _, .absent, _ => ⟨_, .absent, rfl, fun _ h => h⟩
  | _, _, .present h, _ =>
    have ⟨y, h1, h2, _⟩ := TypedL.same hn ht hr h
    ⟨_, .present h1, by simp only [Rfc.encode, h2], fun _ h => by cases h⟩
  | _, _, .void, _ => ⟨_, .void, rfl, fun _ h => h⟩

theorem EachL.same (hn : NumberedEnums ds) (ht : NoLeeway ds L)
    (hr : ∀ u b cond nm, .type (.union u b) ∈ ds → b.cond = .variable cond nm → ∀ l ∈ b.labels, ∀ k,
      Selects ds cond l.1 k → k ≤ 4294967295) :
    ∀ {ts xs}, EachL ds L ts xs → ∃ ys, Each ds true ts ys ∧ ys.length = xs.length ∧
      Rfc.encodeAll ys = Rfc.encodeAll xs
  | _, _, .nil => ⟨[], .nil, rfl, rfl⟩
  | _, _, .cons h1 h2 =>
    have ⟨y, h3, h4, _⟩ := TypedL.same hn ht hr h1
    have ⟨ys, h5, h6, h7⟩ := EachL.same hn ht hr h2
    ⟨y :: ys, .cons h3 h5, by simp only [List.length_cons, h6], by simp only [Rfc.encodeAll, h4, h7]⟩

theorem MembersL.same (hn : NumberedEnums ds) (ht : NoLeeway ds L)
    (hr : ∀ u b cond nm, .type (.union u b) ∈ ds → b.cond = .variable cond nm → ∀ l ∈ b.labels, ∀ k,
      Selects ds cond l.1 k → k ≤ 4294967295) :
    ∀ {ms xs}, MembersL ds L ms xs → (∀ d ∈ ms, DeclIn ds d) →
      ∃ ys, Members ds true ms ys ∧ Rfc.encodeAll ys = Rfc.encodeAll xs
  | _, _, .nil, _ => ⟨[], .nil, rfl⟩
  | _, _, .cons h1 h2, hm =>
    have ⟨y, h3, h4, _⟩ := DeclaredL.same hn ht hr h1 (hm _ (List.mem_cons_self ..))
    have ⟨ys, h5, h7⟩ := MembersL.same hn ht hr h2 (fun d hd => hm d (List.mem_cons_of_mem _ hd))
    ⟨y :: ys, .cons h3 h5, by simp only [Rfc.encodeAll, h4, h7]⟩
end

end
end Xdr.Rpcgen
