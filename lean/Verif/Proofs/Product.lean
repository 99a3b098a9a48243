import Verif.Proofs.RoundTrip
/-! # Lemmas: reading the members of a product one after the other -/

namespace Xdr

/-- Run decoders one after the other. -/
def readAll : List (De Val) → De (List Val)
  | [] => pure []
  | d :: ds => do
    let v ← d
    let vs ← readAll ds
    pure (v :: vs)

theorem visitEach_eq (exp : String) (ds : List (De Val)) (i n : Nat) (h : ds.length ≤ n) :
    visitEach exp ds i { count := n } = readAll ds := by
  induction ds generalizing i n with
  | nil => rfl
  | cons d ds ih =>
    obtain ⟨m, rfl⟩ : ∃ m, n = m + 1 := ⟨n - 1, by simp at h; omega⟩
    rw [visitEach, Seq.next_succ, readAll, M.bind_assoc']
    congr 1
    funext v
    rw [M.pure_bind']
    simp only []
    rw [ih (i + 1) m (by simp at h; omega)]

theorem visitUnwrap_eq (ds : List (De Val)) (n : Nat) (h : ds.length ≤ n) :
    visitUnwrap ds { count := n } = readAll ds := by
  induction ds generalizing n with
  | nil => rfl
  | cons d ds ih =>
    obtain ⟨m, rfl⟩ : ∃ m, n = m + 1 := ⟨n - 1, by simp at h; omega⟩
    rw [visitUnwrap, Seq.next_succ, readAll, M.bind_assoc']
    congr 1
    funext v
    rw [M.pure_bind']
    simp only []
    rw [ih m (by simp at h; omega)]

theorem deTy_tuple (env : Env) (n : Nat) (ts : List Ty) :
    deTy env (n + 1) (.tuple ts) = (readAll (ts.map (deTy env n)) >>= fun vs => pure (.seq vs)) := by
  simp only [deTy, deserialize_tuple]
  rw [visitEach_eq _ _ _ _ (by simp)]

/-- More fields than the access object counts: the members that are counted are read, then `unwrap`
of `None`. -/
theorem visitUnwrap_short {ds : List (De Val)} {bs : Bytes} {vs : List Val} (h : ReadsAll ds bs vs)
    (n : Nat) (hn : n < ds.length) (rest : Bytes) :
    visitUnwrap ds { count := n } (bs ++ rest) = .panic .unwrapNone := by
  induction h generalizing n with
  | nil => simp at hn
  | cons h1 _ ih =>
    cases n with
    | zero => rfl
    | succ m =>
      rw [visitUnwrap, List.append_assoc, M.bind_ok (next_reads h1 _)]
      exact M.bind_panic (ih m (by simpa using hn))

theorem visitVec_eq (d : De Val) (n : Nat) :
    visitVec d (n + 1) { count := n } = readAll (List.replicate n d) := by
  induction n with
  | zero => rfl
  | succ n ih =>
    rw [visitVec, Seq.next_succ, List.replicate_succ, readAll, M.bind_assoc']
    congr 1
    funext v
    rw [M.pure_bind', ← ih]

theorem deTy_vec (env : Env) (n : Nat) (t : Ty) :
    deTy env (n + 1) (.vec t) = (read_u32 >>= fun c =>
      readAll (List.replicate c.toNat (deTy env n t)) >>= fun vs => pure (.seq vs)) := by
  simp only [deTy, deserialize_seq, visitVec_eq]
  rw [M.bind_assoc']

theorem deTy_array (env : Env) (n len : Nat) (t : Ty) :
    deTy env (n + 1) (.array len t) =
      (readAll (List.replicate len (deTy env n t)) >>= fun vs => pure (.seq vs)) := by
  simp only [deTy, deserialize_tuple]
  rw [visitEach_eq _ _ _ _ (by simp)]

/-- `n` key-value pairs in a row. -/
def readPairs (dk dv : De Val) : Nat → De (List (Val × Val))
  | 0 => pure []
  | n + 1 => do
    let k ← dk
    let v ← dv
    let es ← readPairs dk dv n
    pure ((k, v) :: es)

theorem visitMap_eq (dk dv : De Val) (n : Nat) (acc : List (Val × Val)) :
    visitMap dk dv (n + 1) { count := n } acc =
      (readPairs dk dv n >>= fun es => pure (insertAll acc es)) := by
  induction n generalizing acc with
  | zero => rfl
  | succ n ih =>
    have e : ∀ d : De Val, MapAcc.next_key { count := n + 1 } d =
        (d >>= fun v => Pure.pure (some v, { count := n })) := fun _ => rfl
    rw [visitMap, e, readPairs, M.bind_assoc', M.bind_assoc']
    congr 1
    funext k
    rw [M.pure_bind', M.bind_assoc']
    simp only []
    congr 1
    funext v
    rw [ih, M.bind_assoc']
    congr 1

theorem deTy_map (env : Env) (n : Nat) (k v : Ty) :
    deTy env (n + 1) (.map k v) = (read_u32 >>= fun c =>
      readPairs (deTy env n k) (deTy env n v) c.toNat >>= fun es =>
        pure (.map (insertAll [] es))) := by
  simp only [deTy, deserialize_map, visitMap_eq, M.bind_assoc', M.pure_bind']

end Xdr
