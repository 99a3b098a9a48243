import Verif.Props.GenReserve
import Verif.RpcgenProofs.NoRecursion
/-!
# Property C96: how deep decoders of types that do not contain themselves recurse

The stack they need is bounded whatever the input is, in contrast to C58.
-/

namespace Xdr

/-- C96 with a number: the number of types and one, times the height of the highest member and one, and the height of the
type that is read. -/
theorem C96_bound (defs : List (String × Def)) (t : Ty) (h : NotRecursive (program defs))
    (hreturns : ∀ d ∈ defs, d.2.Returns) (ht : t.Returns) (input : Bytes) (n : Nat)
    (hn : (maxHeight defs + 1) * (defs.length + 1) + t.height ≤ n) : fromBytes (program defs) n t input ≠ .depth := by
  intro hdepth
  have hfine := bounded_deTy h (fun x d hx => hreturns (x, d) (program_mem hx)) (H := maxHeight defs)
    (fun x d hx u hu => height_le_heights (List.mem_flatMap.2 ⟨(x, d), program_mem hx, hu⟩)) n t (defs.length + 1) ht
    (fun y _ _ => Nat.lt_succ_of_le (mentionRank_le defs y)) hn input.length input (Nat.le_refl _)
  unfold fromBytes from_bytes at hdepth
  split at hdepth
  · split at hdepth <;> simp at hdepth
  · simp at hdepth
  · simp at hdepth
  · rename_i h; exact hfine h

/-- C96 for any program: when no type contains itself, there is a recursion depth that is enough for every input. -/
theorem C96_depth (defs : List (String × Def)) (t : Ty) (h : NotRecursive (program defs))
    (hreturns : ∀ d ∈ defs, d.2.Returns) (ht : t.Returns) :
    ∃ D, ∀ (input : Bytes) (n : Nat), D ≤ n → fromBytes (program defs) n t input ≠ .depth :=
  ⟨_, fun input n hn => C96_bound defs t h hreturns ht input n hn⟩

/-- C96: within that depth the outcome is the same. -/
theorem C96_same (defs : List (String × Def)) (t : Ty) (h : NotRecursive (program defs))
    (hreturns : ∀ d ∈ defs, d.2.Returns) (ht : t.Returns) :
    ∃ D, ∀ (input : Bytes) (n : Nat), D ≤ n → fromBytes (program defs) n t input = fromBytes (program defs) D t input := by
  obtain ⟨D, hD⟩ := C96_depth defs t h hreturns ht
  exact ⟨D, fun input n hn => C32_bound_irrelevant _ t input D n hn (hD input D (Nat.le_refl _))⟩

namespace Rpcgen

theorem gen_Returns {file : RustFile}
    {defs : List (String × Def)} (hd : file.defs = some defs) : ∀ d ∈ defs, d.2.Returns := by
  intro d hm
  obtain ⟨-, l, hl, rfl⟩ := defs_ok hd
  rcases List.mem_append.1 hm with hm | hm
  · obtain ⟨i, -, -, hi⟩ := itemsMeaning_origin hl hm
    exact item_Returns hi
  · rw [List.mem_singleton] at hm
    subst hm
    refine ⟨?_, trivial⟩
    simp [variableArrayDef, Def.types, ReturnsAll, Ty.Returns]

/-- C96: decoders of generated source in which no type contains itself. -/
theorem C96_source {n : Nat} {s : Str} {flags : Flags} {file : RustFile} (h : run n s flags = .printed file)
    {defs : List (String × Def)} (hd : file.defs = some defs) (hnr : file.NotRecursive) (ty : String) :
    ∃ D, ∀ (input : Bytes) (m : Nat), D ≤ m → fromBytes (Xdr.program defs) m (.named ty) input ≠ .depth := by
  obtain ⟨ds, -, hg⟩ := run_ok h
  exact C96_depth defs _ (notRecursive_program hd (variableArray_lookup hg hd) hnr) (gen_Returns hd)
    (by simp [Ty.Returns])

/-- C96: the interface decides. -/
theorem C96_generated {n : Nat} {s : Str} {flags : Flags} {file : RustFile} (h : run n s flags = .printed file)
    {defs : List (String × Def)} (hd : file.defs = some defs) :
    ∃ ds, parse s = .ok ds ∧ (NoRecursion ds → ∀ ty, ∃ D, ∀ (input : Bytes) (m : Nat), D ≤ m →
      fromBytes (Xdr.program defs) m (.named ty) input ≠ .depth) := by
  obtain ⟨ds, hp, hg⟩ := run_ok h
  exact ⟨ds, hp, fun hnr ty => C96_source h hd (notRecursive_gen rfl hg hnr) ty⟩

/-- C96 for the printed text of a proper interface (`C73_whole`). -/
theorem C96_whole {s : Str} {ds : List Definition} (hp : parse s = .ok ds) {flags : Flags}
    (h : Proper ds flags.config) (hnr : NoRecursion ds) :
    ∃ out defs, (∀ n, (definedNames ds).length < n → ds.length < n → output n s flags = some out) ∧
      rustDefs out = some defs ∧ ∀ ty, ∃ D, ∀ (input : Bytes) (m : Nat), D ≤ m →
        fromBytes (Xdr.program defs) m (.named ty) input ≠ .depth := by
  obtain ⟨file, out, defs, h1, ⟨⟨defs', hd⟩, hsz, -⟩, h3, -⟩ := C73_whole hp h
  let m := max (definedNames ds).length ds.length + 1
  obtain ⟨h4, h5⟩ := h1 m (by omega) (by omega)
  have h6 := C70_program h4 h5 hd
  rw [h3] at h6
  cases h6
  obtain ⟨ds', hp', k⟩ := C96_generated h4 hd
  cases hp.symm.trans hp'
  exact ⟨out, defs, fun n hn hn' => (h1 n hn hn').2, h3, k hnr⟩

end Rpcgen

/-! ## A list -/

section
variable {env : Env} {x f : String} (hx : env x = some (.struct [(f, .option (.named x))]))
include hx

theorem deTy_chain (n : Nat) (b : Bytes) : deTy env (n + 1) (.named x) b =
    (deTy env n (.option (.named x)) >>= fun v => pure (.seq [v])) b := by
  simp only [deTy, hx, deDef, deserialize_struct]
  rw [visitEach_eq _ _ _ _ (by simp)]
  simp only [List.map_cons, List.map_nil, readAll, M.bind_assoc', M.pure_bind']

theorem chain_depth (k n : Nat) (h : n ≤ 2 * k) : deTy env n (.named x) (Sample.links k) = .depth := by
  induction k generalizing n with
  | zero => obtain rfl : n = 0 := by omega
            rfl
  | succ k ih =>
    match n, h with
    | 0, _ => rfl
    | 1, _ => rw [deTy_chain hx]; rfl
    | n + 2, h =>
      rw [deTy_chain hx, M.bind_run]
      have : deTy env (n + 1) (.option (.named x)) (Sample.links (k + 1)) = .depth := by
        simp only [deTy, deserialize_option, Sample.links]
        rw [M.bind_ok (Sample.link_some _)]
        simp only [show ((1 : UInt32) == 0) = false from rfl, Bool.false_eq_true, if_false]
        rw [M.bind_run, ih n (by omega)]
      rw [this]

theorem chain_ok (k : Nat) : deTy env (2 * k + 2) (.named x) (Sample.links k) = .ok (Sample.chain k, []) := by
  induction k with
  | zero =>
    rw [deTy_chain hx]
    have : deTy env (2 * 0 + 1) (.option (.named x)) (Sample.links 0) = .ok (.none, []) := by
      simp only [deTy, deserialize_option, Sample.links]
      rw [show ([0, 0, 0, 0] : Bytes) = [0, 0, 0, 0] ++ [] from rfl, M.bind_ok (Sample.link_none _)]
      rfl
    rw [M.bind_ok this]; rfl
  | succ k ih =>
    rw [deTy_chain hx]
    have : deTy env (2 * (k + 1) + 1) (.option (.named x)) (Sample.links (k + 1)) =
        .ok (.some (Sample.chain k), []) := by
      simp only [deTy, deserialize_option, Sample.links]
      rw [M.bind_ok (Sample.link_some _)]
      simp only [show ((1 : UInt32) == 0) = false from rfl, Bool.false_eq_true, if_false]
      rw [show 2 * (k + 1) = 2 * k + 2 by omega, M.bind_ok ih]; rfl
    rw [M.bind_ok this]; rfl

end

namespace Rpcgen

/-- C96: with a type that contains itself there is no such depth. The list of `struct node { node *next; };`: whatever
the depth allowed, there is a message, of at most about twice as many bytes, that is not decoded within it, though it
is in a greater one. -/
theorem C96_list : ∃ file defs, run 5 c!"struct node { node *next; };" {} = .printed file ∧ file.defs = some defs ∧
    ∀ m, ∃ (input : Bytes) (v : Val), input.length ≤ 2 * m + 6 ∧
      fromBytes (Xdr.program defs) m (.named "Node") input = .depth ∧
      ∃ m', fromBytes (Xdr.program defs) m' (.named "Node") input = .ok v := by
  have hx : ∃ file defs, run 5 c!"struct node { node *next; };" {} = .printed file ∧ file.defs = some defs ∧
      Xdr.program defs "Node" = some (.struct [("next", .option (.named "Node"))]) := by
    set_option maxRecDepth 100000 in exact ⟨_, _, rfl, rfl, rfl⟩
  obtain ⟨file, defs, h1, h2, h3⟩ := hx
  refine ⟨file, defs, h1, h2, fun m =>
    ⟨Sample.links ((m + 1) / 2), Sample.chain ((m + 1) / 2), ?_, ?_, 2 * ((m + 1) / 2) + 2, ?_⟩⟩
  · rw [Sample.links_length]; omega
  · unfold fromBytes from_bytes
    rw [chain_depth h3 _ _ (by omega)]
  · unfold fromBytes
    rw [from_bytes_ok (chain_ok h3 _), if_pos rfl]

/-! ## Example -/

def shelfText : Str := c!"
enum kind { text = 1, blob = 0 };
typedef opaque bytes<>;
struct entry { kind k; int pos[3]; bytes data; string name<>; };
union item switch (kind k) { case text: string s<>; case blob: entry es<>; };
struct shelf { item *first; item rest<>; };
"

def shelf : List Definition := [
  .type (.enum c!"kind" [⟨c!"text", .constant (.decimal c!"1")⟩, ⟨c!"blob", .constant (.decimal c!"0")⟩]),
  .type (.declaration (.opaqueVariableArray c!"bytes" none)),
  .type (.struct c!"entry" [.variable (.identifier c!"kind") c!"k",
    .fixedArray (.int true) c!"pos" (.constant (.decimal c!"3")), .variable (.identifier c!"bytes") c!"data",
    .string c!"name" none]),
  .type (.union c!"item" ⟨.variable (.identifier c!"kind") c!"k", [
    ⟨[.identifier c!"text"], .string c!"s" none⟩,
    ⟨[.identifier c!"blob"], .variableArray (.identifier c!"entry") c!"es" none⟩], none⟩),
  .type (.struct c!"shelf" [.optionVariable (.identifier c!"item") c!"first",
    .variableArray (.identifier c!"item") c!"rest" none])]

theorem parse_shelf : parse shelfText = .ok shelf := by
  set_option maxRecDepth 100000 in rfl

/-- How many types deep a type is. -/
def shelfRank (a : Str) : Nat :=
  if a = c!"Shelf" then 3 else if a = c!"Item" then 2 else if a = c!"Entry" then 1 else 0

theorem noRecursion_shelf : NoRecursion shelf := by
  have hstep : ∀ a b, TypeUses shelf a b → shelfRank b < shelfRank a := by
    rintro a b ⟨x, d, y, hd, hy, rfl, rfl⟩
    rcases hd with ⟨hm, hn⟩ | ⟨ms, hm, hd⟩ | ⟨u, hm, hd⟩
    · simp only [shelf, List.mem_cons, List.not_mem_nil, or_false, Definition.type.injEq, reduceCtorEq, false_or,
        TypeDef.declaration.injEq] at hm
      subst hm
      simp [Declaration.element] at hy
    · simp only [shelf, List.mem_cons, List.not_mem_nil, or_false, Definition.type.injEq, reduceCtorEq, false_or,
        TypeDef.struct.injEq] at hm
      rcases hm with ⟨rfl, rfl⟩ | ⟨rfl, rfl⟩ <;>
        simp only [List.mem_cons, List.not_mem_nil, or_false] at hd
      · rcases hd with rfl | rfl | rfl | rfl <;> simp [Declaration.element] at hy <;> subst hy <;> decide
      · rcases hd with rfl | rfl <;> simp [Declaration.element] at hy <;> subst hy <;> decide
    · simp only [shelf, List.mem_cons, List.not_mem_nil, or_false, Definition.type.injEq, reduceCtorEq, false_or,
        TypeDef.union.injEq] at hm
      obtain ⟨rfl, rfl⟩ := hm
      rcases hd with rfl | ⟨v, hd⟩ | hd
      · simp [UnionBody.cond, Declaration.element] at hy; subst hy; decide
      · simp [UnionBody.specs, CaseSpec.values, CaseSpec.declaration, UnionBody.labels] at hd
        rcases hd with ⟨-, rfl⟩ | ⟨-, rfl⟩ <;> simp [Declaration.element] at hy
        subst hy
        decide
      · simp [UnionBody.default] at hd
  intro a ha
  have : ∀ b, Relation.TransGen (TypeUses shelf) a b → shelfRank b < shelfRank a := by
    intro b hb
    induction hb with
    | single h => exact hstep _ _ h
    | tail _ h ih => exact Nat.lt_trans (hstep _ _ h) ih
  exact Nat.lt_irrefl _ (this a ha)

/-- Every type of this interface is decoded within some depth, whatever the input. -/
example : ∃ file defs, run 9 shelfText {} = .printed file ∧ file.defs = some defs ∧
    ∀ ty, ∃ D, ∀ (input : Bytes) (m : Nat), D ≤ m → fromBytes (Xdr.program defs) m (.named ty) input ≠ .depth := by
  have hx : ∃ file defs, run 9 shelfText {} = .printed file ∧ file.defs = some defs := by
    set_option maxRecDepth 100000 in exact ⟨_, _, rfl, rfl⟩
  obtain ⟨file, defs, h1, h2⟩ := hx
  obtain ⟨ds, hp, k⟩ := C96_generated h1 h2
  cases parse_shelf.symm.trans hp
  exact ⟨file, defs, h1, h2, k noRecursion_shelf⟩

/-- A depth of 30 is enough, whatever the type and the input. -/
example : ∃ file defs, run 9 shelfText {} = .printed file ∧ file.defs = some defs ∧
    ∀ ty (input : Bytes), fromBytes (Xdr.program defs) 30 (.named ty) input ≠ .depth := by
  have hx : ∃ file defs, run 9 shelfText {} = .printed file ∧ file.defs = some defs ∧
      (maxHeight defs + 1) * (defs.length + 1) + 1 ≤ 30 := by
    set_option maxRecDepth 100000 in exact ⟨_, _, rfl, rfl, by decide⟩
  obtain ⟨file, defs, h1, h2, h3⟩ := hx
  obtain ⟨ds, hp, hg⟩ := run_ok h1
  cases parse_shelf.symm.trans hp
  exact ⟨file, defs, h1, h2, fun ty input => C96_bound defs _
    (notRecursive_program h2 (variableArray_lookup hg h2) (notRecursive_gen rfl hg noRecursion_shelf)) (gen_Returns h2)
    (by simp [Ty.Returns]) input 30 (by simpa [Ty.height] using h3)⟩

/-! An interface that is proper -/

def routeText : Str := c!"struct point { int x; int y; }; struct route { point start; point end; string name<>; };"

def route : List Definition := [
  .type (.struct c!"point" [.variable (.int true) c!"x", .variable (.int true) c!"y"]),
  .type (.struct c!"route" [.variable (.identifier c!"point") c!"start", .variable (.identifier c!"point") c!"end",
    .string c!"name" none])]

theorem parse_route : parse routeText = .ok route := by
  set_option maxRecDepth 100000 in rfl

theorem declarations_route : declarations route = [
    .variable (.int true) c!"x", .variable (.int true) c!"y",
    .variable (.identifier c!"point") c!"start", .variable (.identifier c!"point") c!"end",
    .string c!"name" none] := rfl

theorem route_atoms : ∀ a ∈ atoms route, a.tame = true := by decide +kernel

theorem noRecursion_route : NoRecursion route := by
  have hstep : ∀ a b, TypeUses route a b → a = c!"Route" ∧ b = c!"Point" := by
    rintro a b ⟨x, d, y, hd, hy, rfl, rfl⟩
    rcases hd with ⟨hm, hn⟩ | ⟨ms, hm, hd⟩ | ⟨u, hm, hd⟩
    · simp [route] at hm
    · simp only [route, List.mem_cons, List.not_mem_nil, or_false, Definition.type.injEq, TypeDef.struct.injEq] at hm
      rcases hm with ⟨rfl, rfl⟩ | ⟨rfl, rfl⟩ <;> simp only [List.mem_cons, List.not_mem_nil, or_false] at hd
      · rcases hd with rfl | rfl <;> simp [Declaration.element] at hy
      · rcases hd with rfl | rfl | rfl <;> simp [Declaration.element] at hy <;> subst hy <;> decide
    · simp [route] at hm
  intro a ha
  have hfirst : ∀ b, Relation.TransGen (TypeUses route) a b → a = c!"Route" ∧ b = c!"Point" := by
    intro b hb
    induction hb with
    | single h => exact hstep _ _ h
    | tail _ h ih => exact ⟨ih.1, (hstep _ _ h).2⟩
  obtain ⟨h1, h2⟩ := hfirst a ha
  rw [h1] at h2
  cases h2

theorem sized_route : ∀ a, ¬ Relation.TransGen (Contains route) a a := by
  have hin : ∀ {d m}, Inside route d m → d.inPlace = some (.identifier m) := by
    intro d m h
    induction h with
    | item h _ _ => exact h
    | typedef _ ht _ ih => have := (typeOf_mem ht).1; simp [route] at this
  have hstep : ∀ {a b}, Contains route a b → a = c!"route" ∧ b = c!"point" := by
    intro a b h
    cases h with
    | member hm hd hne hi =>
      have hi := hin hi
      simp only [route, List.mem_cons, Definition.type.injEq, TypeDef.struct.injEq, List.not_mem_nil, or_false] at hm
      rcases hm with ⟨rfl, rfl⟩ | ⟨rfl, rfl⟩ <;> simp only [List.mem_cons, List.not_mem_nil, or_false] at hd
      · rcases hd with rfl | rfl <;> simp [Declaration.inPlace] at hi
      · rcases hd with rfl | rfl | rfl <;> simp [Declaration.inPlace] at hi <;> subst hi <;> decide
    | cond hm hi => simp [route] at hm
    | arm hm hl hi => simp [route] at hm
    | default hm hd hi => simp [route] at hm
  intro a ha
  have hfirst : ∀ b, Relation.TransGen (Contains route) a b → a = c!"route" ∧ b = c!"point" := by
    intro b hb
    induction hb with
    | single h => exact hstep h
    | tail _ h ih => exact ⟨ih.1, (hstep h).2⟩
  obtain ⟨h1, h2⟩ := hfirst a ha
  rw [h1] at h2
  cases h2

theorem unambiguous_route : Unambiguous route := ⟨by decide +kernel, by decide +kernel⟩

theorem proper_route (flags : Flags) : Proper route flags.config where
  tame := {
    names := fun s h => by
      have := route_atoms _ h
      unfold Atom.tame at this
      simp only at this
      split at this
      · next c cs hc => exact ⟨c, cs, hc, this⟩
      · cases this
    members := fun s ms h d hd => by
      have : ∀ d ∈ declarations route, ∃ f ∈ d.name, f ∉ pathWords := by decide
      obtain ⟨f, h1, h2⟩ := this d (declIn_mem (.inr (.inl ⟨s, ms, h, hd⟩)))
      exact ⟨f, h1, h2⟩
    bools := fun u b nm h => by simp [route] at h
    enums := fun e as h => by simp [route] at h
    labels := fun u b h => by simp [route] at h }
  clean := {
    unambiguous := unambiguous_route
    types := by decide +kernel
    shadow := by decide +kernel
    defined := fun d name h he => by
      have hm := declIn_mem h
      rw [declarations_route] at hm
      simp only [List.mem_cons, List.not_mem_nil, or_false] at hm
      rcases hm with rfl | rfl | rfl | rfl | rfl <;> cases he <;> decide +kernel
    constants := fun a ha => by simp [route, constants] at ha
    lengths := fun ts nm v h => by simpa [declarations_route] using declIn_mem h
    opaqueLengths := fun nm v h => by simpa [declarations_route] using declIn_mem h
    fixedArrays := fun ts nm v h => by simpa [declarations_route] using declIn_mem h
    arrays := fun ts nm m h => by simpa [declarations_route] using declIn_mem h
    pointers := fun ts nm h => by simpa [declarations_route] using declIn_mem h
    enumMembers := fun _ d name e as h hts ht => by have := (typeOf_mem ht).1; simp [route] at this
    fields := fun s ms h => by
      simp only [route, List.mem_cons, Definition.type.injEq, TypeDef.struct.injEq, List.not_mem_nil, or_false] at h
      rcases h with ⟨rfl, rfl⟩ | ⟨rfl, rfl⟩ <;> exact ⟨by decide +kernel, by decide +kernel⟩
    u8 := fun ms h => by simp [route] at h
    enums := fun e as h => by simp [route] at h
    unions := fun u b h => by simp [route] at h
    sized := sized_route
    locals := fun a ha => by simp [route, constants] at ha
    generics := fun _ => by decide +kernel
    enumError := fun _ e as h => by simp [route] at h
    unionError := fun _ u b h => by simp [route] at h }
  supported := {
    unambiguous := unambiguous_route
    enums := fun e as h => by simp [route] at h
    positions := fun _ d name e as _ _ ht => by have := (typeOf_mem ht).1; simp [route] at this
    arrays := fun ts nm m h => by
      rcases h with h | ⟨s, ms, h, hd⟩ | ⟨u, b, v, h, hd⟩ | ⟨u, b, h, hd⟩
      · simp [route, TypedefIn] at h
      · simpa [declarations_route] using declIn_mem (.inr (.inl ⟨s, ms, h, hd⟩))
      · simp [route] at h
      · simp [route] at h
    unions := fun u b h => by simp [route] at h
    arms := fun _ d h => by obtain ⟨u, b, v, h, hd⟩ := h; simp [route] at h
    defaults := fun _ d h => by obtain ⟨u, b, h, hd⟩ := h; simp [route] at h }
  constants name c h := by simp [route] at h
  lengths ts nm c h := by simpa [declarations_route] using declIn_mem h
  opaqueLengths nm c h := by simpa [declarations_route] using declIn_mem h
  types d ts h he := by
    have hm := declIn_mem h
    rw [declarations_route] at hm
    simp only [List.mem_cons, List.not_mem_nil, or_false] at hm
    rcases hm with rfl | rfl | rfl | rfl | rfl <;> cases he
    · exact .int _
    · exact .int _
    · exact .item (t := .struct c!"point" [.variable (.int true) c!"x", .variable (.int true) c!"y"]) rfl nofun
    · exact .item (t := .struct c!"point" [.variable (.int true) c!"x", .variable (.int true) c!"y"]) rfl nofun

/-- Whatever the flags, the text printed for it defines types that are decoded within some depth. -/
example (flags : Flags) : ∃ out defs, (∀ n, 2 < n → output n routeText flags = some out) ∧ rustDefs out = some defs ∧
    ∀ ty, ∃ D, ∀ (input : Bytes) (m : Nat), D ≤ m → fromBytes (Xdr.program defs) m (.named ty) input ≠ .depth := by
  obtain ⟨out, defs, h1, h2, h3⟩ := C96_whole parse_route (proper_route flags) noRecursion_route
  exact ⟨out, defs, fun n hn => h1 n (Nat.lt_of_le_of_lt (by decide) hn) (Nat.lt_of_le_of_lt (by decide) hn), h2, h3⟩

end Rpcgen

end Xdr
