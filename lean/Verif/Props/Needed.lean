import Verif.RpcgenProofs.NeededUnion
import Verif.Props.Compiles
/-!
# Property C71, the other direction: what an interface needs for its source to compile
-/

namespace Xdr.Rpcgen

/-- C71. If what is printed compiles, the interface has what `Needed` (`Spec/Needed.lean`) says: source for any
other interface is refused. -/
theorem C71_needed {n : Nat} {s : Str} {flags : Flags} {file : RustFile} (h : run n s flags = .printed file)
    (hc : file.Compiles) : ∃ ds, parse s = .ok ds ∧ Needed ds flags.config := by
  obtain ⟨ds, hp, hg⟩ := run_ok h
  obtain ⟨⟨defs, hdefs⟩, hs, hap⟩ := hc
  have hd := C65_declared hp hg
  refine ⟨ds, hp, ?_⟩
  exact {
    distinct := needed_distinct hd hdefs
    constants := needed_constants hd hdefs
    types := needed_types rfl hg hdefs
    shadow := needed_shadow rfl hg hdefs
    defined := needed_defined hp rfl hg hdefs
    lengths := needed_lengths hp rfl hg hdefs
    opaqueLengths := needed_opaqueLengths hp rfl hg hd hdefs
    fixedArrays := needed_fixedArrays hp rfl hg hdefs
    arrays := needed_arrays hp rfl hg hdefs
    pointers := needed_pointers hp rfl hg hdefs
    enumMembers := needed_enumMembers rfl hg hdefs
    fields := needed_fields hp hg hdefs
    enums := needed_enums hp hg hdefs
    unions := fun u b hm => by
      obtain ⟨u, names, hmem, hu, h1, -, h2⟩ := union_labels hp hg hdefs hm
      exact ⟨names, h1, h2, needed_matched hp rfl hg hdefs hm hmem hu h1⟩
    sized := needed_sized hp rfl hg hs
    underscores := needed_underscores hg hd hap
    enumLocals := needed_enumLocals hg hd hap
    enumIndexer := needed_enumIndexer hp hg hdefs hap
    unionIndexer := needed_unionIndexer hp hg hdefs hap }

/-- The source for an interface of all kinds compiles, and so the interface has all that is needed. -/
example (flags : Flags) {n : Nat} {s : Str} {file : RustFile} (hp : parse s = .ok catalogue)
    (h : run n s flags = .printed file) : Needed catalogue flags.config := by
  obtain ⟨ds, h1, h2⟩ := C71_compiles_partial h
  rw [hp] at h1
  cases h1
  obtain ⟨ds, h1, h3⟩ := C71_needed h (h2 (clean_catalogue flags))
  rw [hp] at h1
  cases h1
  exact h3

/-- An array of 33 numbers in a typedef of a typedef: refused, whatever else is in the file. -/
example {n : Nat} {s : Str} {flags : Flags} {file : RustFile} {ds : List Definition} {st a b f : Str}
    (h : run n s flags = .printed file) (hp : parse s = .ok ds)
    (hst : .type (.struct st [.variable (.identifier a) f]) ∈ ds)
    (ha : typeOf ds a = some (.declaration (.variableArray (.identifier b) a none)))
    (hb : typeOf ds b = some (.declaration (.fixedArray (.int true) b (.constant (.decimal c!"33"))))) :
    ¬ file.Compiles := by
  intro hc
  obtain ⟨ds', hp', hn⟩ := C71_needed h hc
  rw [hp] at hp'
  cases hp'
  have hm : Shown ds flags.config (.variable (.identifier a) f) := .member ⟨st, _, hst, List.mem_cons_self⟩
  have h1 := Shown.typedef hm rfl ha nofun
  have h2 := Shown.typedef h1 rfl hb fun _ ho => by
    cases ho with
    | typedef h _ _ => cases h
  obtain ⟨c, hc, hle⟩ := hn.lengths _ _ _ h2
  cases hc
  exact absurd hle (by decide +kernel)

/-- With `--use-union` and no indexer, a union on a plain `int`: refused, whatever else is in the file. -/
example {n : Nat} {s : Str} {flags : Flags} {file : RustFile} {ds : List Definition} {u nm : Str} {b : UnionBody}
    (h : run n s flags = .printed file) (hp : parse s = .ok ds) (hm : .type (.union u b) ∈ ds)
    (hb : b.cond = .variable (.int true) nm) (h1 : flags.config.union_impl_union = true)
    (h2 : flags.config.union_impl_indexer = false) : ¬ file.Compiles := by
  intro hc
  obtain ⟨ds', hp', hn⟩ := C71_needed h hc
  rw [hp] at hp'
  cases hp'
  obtain ⟨names, -, -, h3⟩ := hn.unions u b hm
  obtain ⟨cond, nm', h4, h5⟩ := h3 h1 h2
  rw [hb] at h4
  cases h4
  cases h5 with
  | unsigned h => cases h

end Xdr.Rpcgen
