{
 "C07": {
  "note": "False of the code: C07_violated and C07_unpadded_panics exhibit inputs whose decoding panics (a string or byte buffer whose padding bytes are missing). C07_no_panic_partial proves the rest: types without strings or byte buffers never panic; C07_aligned_no_panic_partial: no type panics on input whose length is a multiple of four. C07_cut_exact: the beginning of a message panics exactly if it ends in the padding of a string or byte buffer. C07_exact: for every type and every input, from_bytes panics exactly on the inputs a table by type lists, and at the place it lists; C07_only_padding: the padding of a text is the only such place unless the user's own code panics, names a variant that is not there or has a variant with too many members; (see C85 for the rest of the table)."
 },
 "C18": {
  "note": "False of the code for lengths of 2^32 and more: C18_violated, and C18_long_violated for every such vector and byte string. C18_truncates says what is written for any length. C18_lengths_partial proves the claim for every shorter value."
 },
 "C25": {
  "note": "False of the code for variants with too many fields (C25_violated, C25_indexer_panics, C25_union_panics). C25_read_back_partial proves it for variants within the bound. C25_indexer_exact and C25_union_exact are the equivalence: what was written is read back if and only if there are at most nine fields after the index or discriminant."
 },
 "C35": {
  "note": "False of the code for type names beginning with void (C35_violated), and for types named char or short where a blank must follow. C35_parse_print proves the exact condition: the round trip succeeds if and only if the tree is WellFormed and Writable."
 },
 "C41": {
  "note": "C41_resolves proves the value for every chain. The error half is proved for files in which no name is both a constant and an enum member (C41_errors_partial); otherwise the code falls back on the enum member when the constant fails (C41_fallback). C41_exact says what the code does for every file, as an equivalence; C41_outcome_stands relates it to the claim."
 },
 "C42": {
  "note": "False of the code: C42_endless, C42_violated (cyclic constants recurse forever). C42_terminates_partial proves it for files without cycles, with an explicit bound. C42_exact is the equivalence: resolving a name never ends if and only if an endless chain of names starts there."
 },
 "C59": {
  "note": "False of the code (C59_violated); C59_keywords_partial proves it for names without capitals. C59_exact is the equivalence: the names that become a bare keyword are the keywords with some first letters in upper case."
 },
 "C60": {
  "note": "False of the code (C60_violated); C60_distinct_partial proves it for names already in the target style; C60_collide_partial for names that differ in more than case and underscores."
 },
 "C43": {
  "note": "False of the code for negative numbers: C43_violated (wrong numbers on the wire), C43_negative_gap_panics, C43_max_panics. C43_wire_partial proves it for all enums with distinct non-negative numbers; C43_exact is the equivalence: the numbers are right if and only if none is negative; C43_shifted says what is written otherwise; C43_undeclared says what undeclared numbers decode to."
 },
 "C45": {
  "note": "C45_members_partial proves the member half for all enums with distinct numbers of any sign. The other half is false of the code for every enum: C45_unknown_violated."
 },
 "C53": {
  "status": "partial",
  "note": "False of the code in general: the C53_*_violated theorems show wrong bytes for names defined twice, negative enum numbers without flags, std-trait enums used other than as struct members, fixed-size opaque arms with traits, opaque default arms, default arms without use-union, and variable arrays of arrays of opaque data. C53_conforms_partial proves the claim for every run of the tool and every file without these (Supported, Spec/Fragment.lean), with no bound on files or values; values that take a default arm with use-union only."
 },
 "C48": {
  "note": "C48_union proves it in full with --use-union. Without it, it is false of the code: with --use-indexer no default arm can be written (C48_indexer_violated); without flags it holds of one number only (C48_serde_partial)."
 },
 "C51": {
  "note": "C51_fields: one field per member, in order, with the type of the README table; C51_encoding: writing and reading a value is writing and reading its fields one after the other."
 },
 "C52": {
  "note": "C52_expansion and C52_removed cover every chain of typedefs; C52_depth shows chains without cycles end; C52_cycle, C52_cycle_struct show cyclic typedefs never do."
 },
 "C56": {
  "note": "False of the code, for every interface and length: C56_dropped (maximum lengths do not influence the output), C56_any_length_violated (values of any length are written and read), C56_violated (smallest case). C56_written_exact: with use-union or without default arms, in files that leave no other leeway (Gapless), what is written are exactly the encodings of the values the interface has without its maximum lengths, which include its own (C56_unbounded_values).",
  "status": "partial"
 },
 "C57": {
  "note": "False of the code: the C57_*_violated theorems exhibit panics. C57_no_panic_partial proves it for every configuration and every file without those constructs (Tame, Spec/Tame.lean). C57_exact: of the files with all numbers and types and without circular definitions, the tool panics at exactly those that are not Printable (C72)."
 },
 "C63": {
  "note": "False of the code: C63_violated and C63_no_constant_violated show a work exponential in the nesting of anonymous types (four times per level). C63_exact gives the exact count on every accepted text, C63_linear_partial the linear bound for every bounded nesting.",
  "status": "partial"
 },
 "C64": {
  "note": "False of the code in three ways, each proved: C64_endless_violated (a struct with itself as member, boxed by the tool, has a default that never returns), C64_union_violated (with use-union, if the default of the discriminant does not select the default variant, no input at all is read as the default), C64_indexer_violated (with indexer and a default arm, writing the default panics). Proved for everything else: C64_value, C64_ends (exact condition for returning), C64_enum, C64_union, C64_roundtrip_partial, C64_roundtrip_union_partial. C64_text, C64_text_enum and C64_text_union say it of the printed text, whose derives and impls are read by Spec/RustDefault.lean.",
  "status": "partial"
 },
 "C65": {
  "status": "partial",
  "note": "False of the code for the compiled file: C65_wide_violated (a second name for a constant of 2^32 or more does not compile), C65_member_violated (a constant defined by an enum member does not compile). Everything about the declarations is proved exactly (C65_declared, C65_rejected, C65_accepted, C65_exact), the compiled value where it compiles (C65_value_partial)."
 },
 "C66": {
  "status": "partial",
  "note": "False of the code: C66_dropped_violated (in a union on bool, labels other than the first FALSE and TRUE are dropped with their arms). C66_variants_partial is the whole claim for all other labels; C66_all_labels says when there are no others."
 },
 "C71": {
  "note": "False of the code: the C71_*_violated theorems, one at least for each condition of Clean (Spec/Clean.lean), exhibit a file the tool prints source for that rustc refuses. C71_compiles_partial proves it, with any flags, for every clean interface, of any size. C71_needed proves the other direction: whatever compiles has what Needed (Spec/Needed.lean) says, so an interface without one of those conditions is refused. Clean asks for more than Needed; interfaces in between are not decided by either."
 },
 "C72": {
  "note": "Printable (Spec/Printable.lean) is the condition, and C72_exact, C72_source, C72_never are exact. C72_tame and C72_tame_exact are a simpler sufficient condition, under which what is not printed is an error. That some of the files that are not printed end in a panic is C57."
 },
 "C73": {
  "note": "Proper (Spec/Proper.lean) lists the conditions, all about the definitions of the file. Circular definitions are excluded by them, as are all inputs at which the tool panics or fails."
 },
 "C74": {
  "note": "False of the code: the C74_*_violated theorems show accepted bytes of no value, for maximum lengths, gaps between numbers without flags, labels out of range, undefined names, default arms with indexer, and default arms without flags, whose one number need not be one of the discriminant. C74_accepted proves for every byte string that nothing beyond that is accepted, for all interfaces of the fragment of C53 with defined names and default arms under use-union or without flags (DefaultsRead); C74_values_partial is the full claim for interfaces that leave no leeway (NoLeeway, Spec/Accepted.lean); C74_whole is about the printed text. C74_unlimited_partial: in files that leave no leeway but for maximum lengths, what is accepted are values of the interface without these."
 },
 "C75": {
  "note": "False of the code for opaque data of variable length: C75_opaque_violated, C75_bound_violated, C75_generated_violated. C75_accepted proves the bound for every accepted input and every type; C75_reserved_partial proves it for every input for types without such data; C75_all includes them, with 4 GiB added. C75_same: the instrumented decoder is the decoder. Sizes of types in memory are a parameter; the cap of serde (1 MiB) is modelled from its source."
 },
 "C76": {
  "note": "False of the code for text that is not UTF-8 and whose length is no multiple of four: C76_text_violated (for every such text), C76_name_violated. C76_aligned_partial proves word boundaries for implementations that read no text; C76_suffix, C76_elements, C76_entries and C76_ends hold for all. C76_extends: every implementation of the other theorems is one of these."
 },
 "C77": {
  "note": "Faulty (Spec/Utf8.lean) is what is wrong with a byte string, in terms of String.utf8EncodeChar of Lean's core library. Which characters std prints unescaped is a parameter of the printers; the theorems hold for every choice."
 },
 "C80": {
  "note": "False of the code where reserved variants are made (enums without --use-std-trait and --use-indexer, unions without flags): C80_quadratic_violated, C80_reserved_violated. C80_quadratic_partial proves it for all other flags, C80_numbers_partial for all flags with the largest number of the interface as a factor."
 },
 "C81": {
  "note": "False of the code for lists whose elements take no bytes: C81_units_violated, C81_bound_violated, C81_generated_violated. C81_work_partial proves it for every input and outcome for types without them whose unions have simple discriminants. C81_linear_partial: for a program in which no type always contains itself the bound on groups exists, so work is linear in the input. C81_same: the counting decoder is the decoder. Looking at the bytes of strings and byte buffers is not counted."
 },
 "C82": {
  "note": "False of the code: C82_option_violated. C82_left says what stays, for every value and place of failure; C82_instead_partial is an exact condition (nothing was written before the failure). C82_appends and C82_words hold for every implementation; C82_same ties them to the serializer of the other theorems."
 },
 "C83": {
  "note": "False of the code outside the fragment of C53: C83_flags_violated. C83_versions_partial and C83_flags_partial prove it for all pairs of interfaces and flags in that fragment (Supported, Spec/Fragment.lean), default arms with --use-union only. C83_values: the values of an interface are values of its later versions."
 },
 "C84": {
  "note": "No hypothesis on types, values, inputs or the user's code in C84_accepted, C84_front and C84_unambiguous. The table is Wire.Form in Spec/Form.lean. The stack is assumed large enough (some recursion bound n; C32 says which)."
 },
 "C85": {
  "note": "C85_errors: for every type and every input, from_bytes returns exactly the error a table by type lists (Spec/Stops.lean, written without the readers of the model), or TrailingData with the number of bytes behind a value. C85_not_both and C85_once: what is accepted is not listed, and nothing is listed twice. C85_every_input: every input is in one of the two tables, for programs that meet the hypotheses of C32. With C84 and C07 this says what from_bytes does on every input. The text of the value in the message of a union is not modelled."
 },
 "C86": {
  "note": "C86_bytes: in the fragment of C74, an input is accepted by a generated decoder if and only if DefinedF (Spec/AcceptedForm.lean, from the interface alone) has it for some XDR value; what is read is written as RFC 4506 prescribes for that value; no input is listed for two values of different encodings and none is a proper prefix of another. C86_whole says it of the printed text. Without flags a default arm is read for one number, the first above the labels (constructor next). As in C74, typedefs are expanded and have no decoder of their own, and default arms with --use-indexer, which cannot be written, are not covered."
 },
 "C87": {
  "note": "False of the code with --use-indexer (C87_enum_violated: the number of a new enum member is read as the member of least number) and without flags (C87_union_violated: a new label between others is read as an arm without content). C87_messages_partial proves it for all interfaces and flags that leave no such room (Careful, Spec/OldReader.lean), default arms with --use-union or without flags; C87_whole for every proper interface with --use-union, and --use-indexer only along with --use-std-trait. C87_values: the value read is the value sent, up to the type of union discriminants."
 },
 "C88": {
  "note": "C88_whole_words, C88_no_strings and C88_only_padding for every program the generator prints that is valid Rust (file.defs), whatever the flags; C88_whole from the printed text of a proper interface. The panic that remains is that of C07."
 },
 "C89": {
  "note": "C89_returns: for every generated program whose types have finite size (rustc's own check, RustFile.Sized) and every interface without self members, decoding never exceeds a depth linear in the input. C89_answers adds C88; C89_whole starts from the printed text of a proper interface. C89_self_member: a structure whose first member is itself diverges on every input, although it compiles. C89_self_anywhere: a structure with itself as any member accepts no input; C89_no_values: it has no values in the interface either."
 },
 "C90": {
  "note": "C90_exact and C90_failure are about any program, C90_inside that parts of what is written are written, C90_all a program without XdrIndexer. C90_generated: for every interface and all flags, what is not written has a Default arm (use-indexer) or a serde variant at place 2^31 or later inside; C90_generated_all and C90_whole: otherwise all values are. C90_default: with use-indexer a value with a Default arm inside is never written."
 },
 "C91": {
  "note": "C91_exact: what is written comes back if and only if the discriminants inside agree with their variants (Selected, Spec/Inside.lean); C91_reads gives the depth. C91_plain: without use-union everything written comes back; C91_all: and everything is written. C91_injective: equal encodings, equal values. C91_discriminant: what agreeing means in terms of the interface (the discriminant is written as an XDR value; name_by_value names the case with its number as label, else the default). C91_whole: for the printed text. An example shows a text under the discriminant of a blob coming back as a blob."
 },
 "C92": {
  "note": "C92_written: what is written for a value is the encoding of a value of the XDR type up to the leeway of the flags (DefinedL); C92_whole: for the printed text. C92_values_partial and C92_exact_partial: for files that leave no leeway, of a value of the XDR type itself, and with use-union or without default arms exactly those. Without the conditions it is false: C92_discriminant_violated (the discriminant of another case), C92_maximum_violated (longer than the maximum), C92_enum_gap_violated (the variant that fills a gap)."
 },
 "C93": {
  "note": "C93_versions_partial: between an interface and a later version of it, each with its own flags; C93_flags_partial: one interface, two settings of the flags. Conditions are on the interfaces only and do not mention maximum lengths (RpcgenProofs/Unbounded.lean). Outside them it is false: C93_enum_gap_violated (the variant that fills a gap is read as another member with --use-indexer), C93_discriminant_violated (a foreign discriminant is not read)."
 },
 "C94": {
  "note": "C94_work: for every generated program whose types have finite size (rustc's own check, RustFile.Sized) and every interface without self members and without fixed lengths 0, work is at most K * (length / 4 + 1), K depending on the program only. C94_returns adds C89; C94_whole starts from the printed text of a proper interface. C94_empty_array and C94_self_member: both conditions are needed, for programs that compile. As in C81, looking at the bytes of strings is not counted."
 },
 "C95": {
  "note": "C95_accepted: for every generated program whose types have finite size and every interface without self members and fixed lengths 0, what decoding requests in advance is at most K * length on accepted inputs; C95_any: on any input, at most K * (length / 4 + 1) + 2^32 - 1. C95_opaque: the last term is needed. C95_fixed: it is not for interfaces with opaque data of fixed lengths only (FixedOpaques, Spec/FixedOpaque.lean). C95_arm: the condition on arms is needed. C95_whole starts from the printed text of a proper interface. Sizes of element types in memory are a parameter, as in C75."
 },
 "C96": {
  "note": "C96_generated: if the parsed interface satisfies NoRecursion (Spec/NoRecursion.lean), every type of the generated program has a depth D such that decoding any input with a depth of D or more does not run out of it. C96_bound gives the depth as a number. C96_depth and C96_same: the same for any program of types (Spec/NotRecursive.lean), and the outcome does not depend on depths from D on. C96_source: the condition put on the generated source. C96_whole starts from the printed text of a proper interface. C96_list: the list of struct node { node *next; }; exceeds every depth, with a message of about twice as many bytes that is valid."
 },
 "C97": {
  "note": "C97_accepted and C97_written: the limits of DefSize (Spec/MessageSize.lean) hold of every accepted input and every written message. C97_whole: both for the printed text of a proper interface. Maximum lengths give no limits: by C56 they do not influence the generated source."
 },
 "C98": {
  "note": "C98_accepted, C98_taken, C98_written: the limits of Wire.TypeSize (Spec/TypeSize.lean) hold of accepted inputs, of what a reader takes from the front of an input and of written messages (for values that fit, C01). C98_one_size and C98_vec: types of one size, and the number of elements of a Vec of them."
 },
 "C99": {
  "note": "C99_field, C99_member, C99_vec and C99_array: reading at the offset gives the member of the decoded whole. The sizes are those of Wire.TypeSizes (Spec/TypeSize.lean). C99_union and C99_enum: what is at the front of unions and enums."
 },
 "C100": {
  "note": "C100_accepted: the same inputs and the same values, both ways. C100_front: for readers at the front of an input. C100_written: what one program writes (of values that fit, C01) the other reads as it was. Layout (Spec/Alike.lean) is a bisimulation, so recursive types are covered. C100_bytes: both programs write the same bytes for a value of both types, or fail alike. C100_typed: values of the one type are values of the other."
 }
}