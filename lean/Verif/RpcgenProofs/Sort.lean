import Verif.Rpcgen.Gen
import Mathlib.Data.List.Perm.Basic
/-!
# Sorting, ranges and decimal numbers
-/

namespace Xdr.Rpcgen

variable {α : Type}

theorem insertByKey_perm (x : Int × α) (l : List (Int × α)) : (insertByKey x l).Perm (x :: l) := by
  induction l with
  | nil => exact .refl _
  | cons y ys ih =>
    unfold insertByKey
    split
    · exact .refl _
    · exact (ih.cons y).trans (.swap x y ys)

theorem insertByKey_sorted (x : Int × α) (l : List (Int × α)) (h : l.Pairwise fun a b => a.1 ≤ b.1) :
    (insertByKey x l).Pairwise fun a b => a.1 ≤ b.1 := by
  induction l with
  | nil => simp [insertByKey]
  | cons y ys ih =>
    obtain ⟨h1, h2⟩ := List.pairwise_cons.1 h
    unfold insertByKey
    split
    · next hlt =>
      refine List.pairwise_cons.2 ⟨fun b hb => ?_, h⟩
      rcases List.mem_cons.1 hb with rfl | hb
      · omega
      · have := h1 b hb
        omega
    · next hge =>
      refine List.pairwise_cons.2 ⟨fun b hb => ?_, ih h2⟩
      rcases List.mem_cons.1 ((insertByKey_perm x ys).mem_iff.1 hb) with rfl | hb
      · omega
      · exact h1 b hb

theorem sortByKey_aux (l acc : List (Int × α)) (h : acc.Pairwise fun a b => a.1 ≤ b.1) :
    (l.foldl (fun acc x => insertByKey x acc) acc).Perm (l ++ acc) ∧
    (l.foldl (fun acc x => insertByKey x acc) acc).Pairwise fun a b => a.1 ≤ b.1 := by
  induction l generalizing acc with
  | nil => exact ⟨.refl _, h⟩
  | cons x xs ih =>
    obtain ⟨h1, h2⟩ := ih (insertByKey x acc) (insertByKey_sorted x acc h)
    refine ⟨?_, h2⟩
    exact h1.trans (((insertByKey_perm x acc).append_left xs).trans List.perm_middle)

theorem sortByKey_perm (l : List (Int × α)) : (sortByKey l).Perm l := by
  simpa [sortByKey] using (sortByKey_aux l [] .nil).1

theorem sortByKey_sorted (l : List (Int × α)) : (sortByKey l).Pairwise fun a b => a.1 ≤ b.1 :=
  (sortByKey_aux l [] .nil).2

theorem mem_sortByKey {l : List (Int × α)} {x : Int × α} : x ∈ sortByKey l ↔ x ∈ l :=
  (sortByKey_perm l).mem_iff

/-- With distinct keys, the order is strict. -/
theorem sortByKey_strict {l : List (Int × α)} (h : (l.map (·.1)).Nodup) :
    (sortByKey l).Pairwise fun a b => a.1 < b.1 := by
  have hn : ((sortByKey l).map (·.1)).Nodup := ((sortByKey_perm l).map _).nodup_iff.2 h
  have hs := sortByKey_sorted l
  have hp : (sortByKey l).Pairwise fun a b => a.1 ≠ b.1 := List.pairwise_map.1 hn
  exact (hs.and hp).imp fun ⟨h1, h2⟩ => by omega

theorem intRange_length (a b : Int) : (intRange a b).length = (b - a).toNat := by
  simp [intRange]

theorem mem_intRange {a b k : Int} : k ∈ intRange a b ↔ a ≤ k ∧ k < b := by
  simp only [intRange, List.mem_map, List.mem_range]
  constructor
  · rintro ⟨i, hi, rfl⟩
    omega
  · rintro ⟨h1, h2⟩
    exact ⟨(k - a).toNat, by omega, by omega⟩

/-- Consecutive numbers from a start: how variants in complement mode are numbered. -/
def Consecutive (start : Int) (l : List Int) : Prop :=
  ∀ (i : Nat) (k : Int), l[i]? = some k → k = start + (i : Int)

theorem consecutive_intRange (a b : Int) : Consecutive a (intRange a b) := by
  intro i k h
  simp only [intRange, List.getElem?_map, Option.map_eq_some_iff] at h
  obtain ⟨j, hj, rfl⟩ := h
  have := List.getElem?_eq_some_iff.1 hj
  simp at this
  omega

theorem Consecutive.append {s : Int} {l r : List Int} (hl : Consecutive s l)
    (hr : Consecutive (s + (l.length : Int)) r) : Consecutive s (l ++ r) := by
  intro i k h
  by_cases hi : i < l.length
  · rw [List.getElem?_append_left hi] at h
    exact hl i k h
  · rw [List.getElem?_append_right (by omega)] at h
    have := hr _ _ h
    omega

theorem consecutive_nil (s : Int) : Consecutive s [] := by
  intro i k h
  simp at h

theorem consecutive_singleton (s : Int) : Consecutive s [s] := by
  intro i k h
  cases i with
  | zero => simpa using h.symm
  | succ i => simp at h

end Xdr.Rpcgen
