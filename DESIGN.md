# A Lean 4 model of xdr-rs

Subject: `/repo` (9506hqwy/xdr-rs): crates `serde-xdr`, `serde-xdr-derive`, `rpcgen`.
Every model definition cites the file and lines it models. The code is not run; the tie between
model and code is reading, and the unit tests of the crates replayed on the model (`Verif/Tests`).

`properties.jsonl` lists the properties, `MANIFEST.json` the theorems that settle them. A property that
is false of the code has theorems `Cnn_.._violated` (a witness, or a family of witnesses) and, for the part
that holds, `Cnn_.._partial`.

## 1. Layers

| Module | Content |
|---|---|
| `Verif/Model/Basic.lean` | `error.rs`, result type `Res` (ok / err / panic / depth), big-endian integers |
| `Verif/Model/Utf8.lean` | `str::from_utf8` with its error, and `str::as_bytes` (std) |
| `Verif/Model/Display.lean`, `Verif/Rpcgen/Display.lean` | texts of errors |
| `Verif/Model/Ser.lean` | `ser.rs` method by method; `SVal` = the tree of `Serializer` calls a `Serialize` impl makes |
| `Verif/Model/De.lean` | `de.rs` method by method; a visitor is a continuation |
| `Verif/Model/Opaque.lean` | `opaque.rs`, `primitive.rs` |
| `Verif/Model/Derive.lean` | the two derive macros and the code they produce |
| `Verif/Model/SynEnum.lean`, `Verif/Model/DeriveTokens.lean` | the same macros from tokens to tokens |
| `Verif/Spec/RustCode.lean` | a reader of the Rust the macros return, and what that Rust does |
| `Verif/Spec/EnumText.lean` | how an enum is written, as a relation between tokens and enums |
| `Verif/Model/Types.lean` | universe of Rust types `Ty`/`Def`/`Env`, values `Val`, the std + serde-derive + serde-xdr-derive `Serialize`/`Deserialize` impls |
| `Verif/Model/Keep.lean` | `de.rs` with the input a failing call leaves behind |
| `Verif/Model/KeepSer.lean` | `ser.rs` with the output a failing call leaves behind |
| `Verif/Model/Reserve.lean` | the `Deserialize` impls with the memory they request in advance |
| `Verif/Model/Work.lean` | the `Deserialize` impls with the number of impls they call |
| `Verif/Rpcgen/{Text,Nom,Ast,Keyword,Parser}.lean` | `keyword.rs`, `parser.rs`, and the nom combinators it uses |
| `Verif/Rpcgen/{Result,Number,Names,Rust,Gen}.lean` | `gen_code.rs` function by function; the generated source as a tree |
| `Verif/Rpcgen/Cost.lean` | the parser with a counter |
| `Verif/Rpcgen/Default.lean` | `Default::default()` of the generated types |
| `Verif/Rpcgen/Main.lean` | `main.rs`: flags, parse, generate |
| `Verif/Rpcgen/Tokens.lean` | the `quote!` templates of `gen_code.rs` as token trees, and the text proc_macro2 prints for them |
| `Verif/Rpcgen/Meaning.lean` | what rustc makes of a generated file: definitions of `Model/Types.lean`, or none |
| `Verif/Rpcgen/Rustc.lean` | the other reasons for which rustc refuses a generated file: types of infinite size, names taken for others in `impl`s and derives |
| `Verif/Spec/Rfc4506.lean` | the RFC 4506 encoding, from the RFC and not from the code |
| `Verif/Spec/{Utf8,Denote,Fits,Built,Catching,Leaving,Classes,Reaches,Later,Cuts,Form,Stops,TypeSize,Alike}.lean` | what is wrong with bytes that are not UTF-8; which XDR value a Rust value is; values within the format's limits; all decoders; classes of types; types inside types; later versions of types; the pieces of an encoding; the inputs taken for a value; the inputs that are rejected, or panic; sizes of types; types of one layout |
| `Verif/Spec/{XdrText,XdrExact,XdrPrint}.lean` | the XDR language as a relation between syntax trees and texts; the same with the three departures of the tool; a printer |
| `Verif/Spec/{Numbers,Resolve,Schema,Fragment,RustTypes,Bounds,Tame,Calls,Defaults,Consts,Variants,Items,Clean,Needed,Translatable,Printable,Proper,Accepted,AcceptedForm,Uses,Versions,OldReader,Strings,SelfMembers,NoEmpty,FixedOpaque,NotRecursive,RustRecursive,NoRecursion,MessageSize,Inside}.lean` | numbers of literals; definition chains; XDR values of XDR types; the classes of files used in theorems; the README's type table; constants; variants of unions; items of a file; the values a reader may give, and from which bytes; names defined and used |
| `Verif/Spec/{RustLex,RustSyntax,RustMeaning,RustDefault}.lean` | a reader of Rust texts: tokens, items, what types, impls and derives mean, and `Default::default()`; it knows nothing of the generator |
| `Verif/Spec/RustTokens.lean` | the tokens of a token tree |
| `Verif/Proofs/*`, `Verif/RpcgenProofs/*` | lemmas |
| `Verif/Props/*` | the theorems of the properties, with examples showing the hypotheses are met |
| `Verif/Tests/*` | all unit tests of `serde-xdr`, `serde-xdr-test`, `rpcgen` as `example`s |

## 2. Modelling decisions

* Integers are Lean's fixed-width `Int8..UInt64`; Rust `as` is the corresponding conversion. f32/f64
  are their bit patterns. `char` is Lean `Char` (both are Unicode scalar values). A Rust `String` is a
  `List Char`; its bytes are its UTF-8 encoding. `usize` is 64 bit.
* `&mut Serializer` / `&mut Deserializer` become state passing: `M α = Bytes → Res (α × Bytes)`, the
  state being the output so far, or the input left.
* Panics are values (`Res.panic site`, `GR.panic site`). Rust's stack is a recursion bound (`depth` when
  exhausted): every type-level recursion of a `Deserialize` impl takes one unit, as does every step of
  name resolution and of typedef expansion in the generator. Theorems say "for every bound", "for every
  bound larger than the depth of the value", or bound the depth needed.
* "Every Serialize impl" is every finite call tree `SVal` (including failing and panicking ones).
  "Every Deserialize impl" is the inductive predicate `Built` on decoders: the smallest class
  containing the `de.rs` methods applied to visitors of the class. Impls that catch the error of a part
  and go on see the state a failing call leaves: for them the methods are modelled once more, keeping it
  (`Model/Keep.lean`), and the class is `Handled`; C76 is about them, and every `Built` decoder is one of
  them (`C76_extends`). Likewise `Model/KeepSer.lean`, the class `Written` and C82 for `Serialize` impls.
* User supplied trait functions (`index`, `name_by_index`, `name_by_value`, `AsRef`, `TryFrom`) are
  parameters; theorems state the laws they need as hypotheses, and the rpcgen theorems prove the laws
  for generated code.
* nom's combinators are modelled from their documentation and source: `alt`, `opt`, `many0`, `many1`,
  `separated_list1`, `recognize`, `verify`, `peek`, `tag`, `take_until`, character classes. `many0` and
  `many1` fail on a parser that consumes nothing, as in nom. The parsers only raise recoverable errors.
* The generator builds a tree (`Rpcgen/Rust.lean`) with one constructor per template. What it means is
  `Rpcgen/Meaning.lean`, which says where rustc rejects it as far as the reasons listed there go. Theorems
  about generated code are about sources that have a meaning.
* The printed text is `Rpcgen/Tokens.lean`: each template as tokens, printed as proc_macro2's fallback
  `Display` does, with one blank between tokens (none inside parentheses and brackets). That this text means what the
  tree means is a theorem (C70), by a lexer, a parser and an interpreter of the subset of Rust that occurs
  (`Spec/Rust*.lean`), written from the Rust reference. The reader does not check types or names; where a
  name of the interface takes the place of a local name of a template it may accept more than rustc (section 5).

## 3. What is modelled and what is not

| Code | Modelled | Not modelled |
|---|---|---|
| `serde-xdr/src/ser.rs` | everything | |
| `serde-xdr/src/de.rs` | everything; what `size_hint` (365-367) makes callers request in `Model/Reserve.lean` | `is_human_readable` |
| `serde-xdr/src/opaque.rs`, `primitive.rs` | everything | `expecting` texts |
| `serde-xdr/src/error.rs` | everything; in `Display` the tables of characters std prints as they are, are a parameter | |
| `serde-xdr-derive/src/lib.rs` | both macros as functions from the syntax of an enum to match arms and statements (`Model/Derive.lean`), what Rust does with those, and the resulting impls in one step (`Model/Types.lean`), proved equal (C62). Also both macros from the tokens of an enum to the tokens they return (`Model/SynEnum.lean`, `Model/DeriveTokens.lean`), read and run by a small reader of Rust (`Spec/RustCode.lean`) | generics; rustc's type check of the code; types are delimited as `syn` does it for types without `,` outside `<..>` and brackets |
| `rpcgen/src/parser.rs`, `keyword.rs`, `error.rs` | everything | the conversion of nom's errors, which is never used (C34) |
| `rpcgen/src/gen_code.rs` | everything | other layouts of the same tokens than proc_macro2's fallback |
| `rpcgen/src/main.rs` | flags and their effect, parse then generate, the printed text | clap's texts, file reading |
| std, serde, serde_derive, nom, proc_macro2 | the functions and impls the code calls, from their documentation and source | allocation failure (what is requested ahead is: C75), time (the number of calls is: C81) |

## 4. Per property

The plan and, where it differs, the outcome. Status and theorem names are in `MANIFEST.json`.

| Property | Model and method |
|---|---|
| C01 round trip | induction on the recursion bound over `Ty`/`Val`, using per-combinator lemmas |
| C02 alignment | mutual induction over `SVal` |
| C03 RFC 4506 | abstraction `Ty × Val → Rfc.XVal`; induction, encoder equals `Rfc.encode` |
| C04, C05 framing, trailing | corollaries of the strengthened round trip (arbitrary suffix) |
| C06 truncation | induction over `Built`: behaviour on prefixes of consumed input; for written values the outcome at every cut point, from the pieces of the encoding, by the induction of C01 |
| C07 panic freedom | false: strings and byte buffers whose padding is cut off panic. Exact positive classes by induction over types. The inputs that panic are listed by type (`Wire.Stops`); `C07_exact` proves the list right and complete: one direction by induction over the fuel, the other over the list |
| C08 injectivity | corollary of C01 |
| C09 normalisation | induction on the bound: decoded values are well typed, and encode to equal length |
| C10-C14 scalars | arithmetic on big-endian lists (`omega`), UTF-8 inverse theorems |
| C15 padding | computation on the reading functions with symbolic payload |
| C16, C17 | case analysis of the methods, all arguments |
| C18 | false for lengths from 2^32 (symbolic witness); proved below |
| C19-C21 opaque | induction on 4-byte chunks |
| C22-C25 | from C01's lemmas for arbitrary user functions; C25 false for variants with many fields, with the exact bound |
| C26 | computation |
| C27 maps | induction on entries, permutations |
| C28-C30 | induction over `Built` |
| C31, C32 | counting consumed bytes; rank function on named types |
| C33 | mutual induction over `SVal` |
| C34 | fuel = text length + 1 suffices, by length-decrease lemmas for each parser |
| C35 | printer and language relation + induction over the syntax tree; false for names beginning with `void`; exact condition (`Writable`) proved as an equivalence |
| C36, C37, C39, C40, C61 | induction through the parser combinators, in both directions |
| C38 | digits-to-number lemma, overflow checks |
| C41, C42 | relational spec of definition chains; fuel induction; divergence for every fuel |
| C43-C48 | sorted association lists; generated items interpreted back into the `Def` universe |
| C49, C50 | list induction on ASCII strings |
| C51, C52 | relational type table, `gen_code` sound and complete for it |
| C53 | composition of the parser theorems, the generator theorems and C01/C03 on the fragment `Supported`; witnesses outside |
| C54 | all flag combinations (finite domain, complete case split) |
| C55 | permutations of the definitions |
| C56 | generator invariant under change of bounds; witnesses of any length. `C56_written_exact`: where the flags leave no other leeway, what is written is exactly what the interface has without its maximum lengths (`RpcgenProofs/Unbounded.lean`) |
| C57 | witnesses; positive theorem under the guard `Tame`; with C72, the exact condition for translatable files |
| C58 | family of inputs, one per depth |
| C59, C60 | witnesses; positive theorem for names in the target style |
| C62 | the macros in closed form by induction over variants and fields; the produced code is run and compared; the same again for tokens: what the macro returns is read by `Spec/RustCode.lean`, statement by statement, and what it does is compared with the model of the derived impls, also for the declarations the generator writes, and for any enum without generics from its tokens (`Spec/EnumText.lean`) |
| C63 | the parser once more with a counter of type attempts, proved to give the same results; the count in closed form from the tree; a family of texts with exponential count |
| C64 | the defaults as a function of the generated file with a bound on nested calls; invariant for all bounds by induction; exact condition for returning as an inductive predicate; composition with C01; of the printed text by C70 |
| C65 | relation between constants and their declarations, evaluation of constant expressions as a relation; both directions; witnesses |
| C66 | relation between labels and variants; induction over the loop, permutation of the sort; witness |
| C67 | outcomes ordered by bound (`GR.Le`), every function monotone; path in a graph without circles is no longer than its nodes |
| C68 | relation between type definitions and items, element by element |
| C69 | every token of the templates can be read back before a blank or a closing delimiter; induction over token trees |
| C70 | a recursive descent parser proved to return the tree of each template for any continuation of the text; lookup of types, impls and functions in the parsed items proved to find those of the item; the interpreter proved to give the definitions of `Meaning.lean`, function by function, and the same default for every type and every bound on nested calls |
| C71 | conditions on the definitions (`Spec/Clean.lean`) from which every check of `Meaning.lean` and `Rustc.lean` is shown to succeed: names of items, fields and variants, types and their traits by induction over typedefs, constants, exhaustive matches; what an item holds in place is contained in its definition, so no type holds itself; no constant, type or variant has a name the templates and derives use; a witness for each condition. The other direction, `C71_needed`: from the checks' success each condition of `Spec/Needed.lean` is derived, so a file without one of them is refused whatever else is in it. The gap between `Clean` and `Needed` is what neither theorem decides |
| C72 | the condition is `Spec/Printable.lean`. From it, for each generator function, that it comes to a result with all large bounds (`RpcgenProofs/Printed.lean`): accessibility of the specification's derivations gives the bound. Conversely each condition from a successful run |
| C73 | circular definitions excluded by accessibility of names with a number and of known types; then C72, C71, C70 and C53 in a row |
| C74 | generated conversions shown consistent, so C09 applies; then, by induction over the nesting of values and the fuel of the generator, every value of a generated type within the limits has an XDR value of its definition (`Spec/Accepted.lean`); witnesses for each kind of leeway; with maximum lengths, values of the interface without these (`C74_unlimited_partial`) |
| C75 | the decoders once more in a monad that adds up bytes requested in advance (`Model/Reserve.lean`), erased to the decoders by induction; bound by charging each list element to its own first four bytes, so nesting does not multiply; a failing run leaves at most one open list per level |
| C76 | induction over the class `Handled` for what is left; case analysis of `next_element`; induction on the count for a loop that leaves out what fails |
| C77 | std's validation loop with its error, proved equal to the specification by cases on the bytes of one character and induction on the text; that `Debug` texts can be read back, from left to right |
| C78 | decoders that keep answers: a relation between two decoders, closed under their combinators; induction on the stack. Presentations of a value under both versions are equal up to names, which are not written |
| C79 | two contexts that agree on the names used give the same source, by congruence through the generator; then lookups in a selection, an extension and a permutation |
| C80 | a weight for each token tree, at least the length of its text; bounds for the weight of each item from the sizes of the names in it, for types from the typedefs on the way (each is expanded once, or the generator does not return); sum over the file. False where reserved variants are made: one enum with one large number |
| C81 | the decoders once more, counting calls (`Model/Work.lean`), erased to the decoders by induction; bound by an amortised argument: a word read pays for the group of parts it announces and for the element it begins; counterexample: lists of `()` |
| C82 | induction over the class `Written` for what is added; a call tree is its calls one after the other, each of which writes all or nothing; counterexample: `None` written after a failed `Some` |
| C83 | a relation between interface files (`Spec/Versions.lean`); the values of the earlier are values of the later, by mutual induction on `Defined`; then C53 for both programs, which write the bytes RFC 4506 has for the value. What C53 excludes is excluded here; counterexample: one interface with and without `--use-std-trait` |
| C84 | the accepted inputs as an inductive relation between types, values and bytes (`Spec/Form.lean`), one line per kind of type, written without the readers; by induction on the recursion bound every successful run is a form, by mutual induction on the relation every form is read with some bound |
| C85 exactly which error | `Wire.Stops` is a table by type like `Wire.Form`. One direction by induction over the fuel, with a complete description of what each primitive reader does on every input; the other over the table. That every input is in a table follows from C32 |
| C86 | `Spec/AcceptedForm.lean`: the values of C74 with the bytes they may be taken from, an inductive table by definition, written without the generated types. One direction extends the induction of C74 by what `Wire.Form` says of each value; the other is a mutual induction over the table that finds the Rust value and its form. C84 turns forms into runs of the decoder |
| C87 | Two files (`Versions`, C83) and the table of C86 for the earlier: a mutual induction over the table shows, against the encoding of a value of the later version and any continuation of either, that the two agree byte by byte and value by value. Needed: no `XdrIndexer` enums, no union numbered by position that has gaps, bare labels below 2³¹ (`Careful`, `Spec/OldReader.lean`); the first two are shown necessary by runs |
| C88 | `EnvOk` (the hypothesis of C07: hand-written parts do not panic) is proved of every generated program: each name in it is defined, each conversion ends in `Err` for other numbers, each name a union gives for a discriminant that can be read is one of its variants, with the members it has. `NoStrings` (`Spec/Strings.lean`) is about the interface alone |
| C89 | The types a generated type always reads (`Refers`, C32) are those it has inside it (`RustFile.Holds`, what rustc's check of sizes is about) or enums; only boxed members are not inside. So a program that compiles has no cycle of the former unless a structure has itself as a member (`NoSelfMembers`, `Spec/SelfMembers.lean`), and C32 applies: discriminants are `u32`, `bool` or enums, and generated functions return. Such a structure as any member: by induction on the recursion bound nothing is accepted, by induction on the size of values there are none |
| C90 | `parts` (`Spec/Inside.lean`) lists the typed parts of a value, `HasVariant` the variants inside it, `Refusal` those without a number. One case analysis of how values are presented to serde: the bytes are those of the value's own head and then of its parts. Induction on the size of the value gives both directions. For generated programs: every variant has an arm in `index`, except `Default` |
| C91 | `EnvInv` says of a program that its conversions undo each other (`try_from` after `as_ref`, `name_by_index` after `index`) and that names of variants differ; proved of generated programs item by item. Then induction on the size of the value over `parts`: written, small and `Selected` values are `Fits`, and C01 applies. Converse: the parts of a value with a `Form` (C84) have one, and a union is read by its discriminant |
| C92 | What is written is `Fits` (C91), and the induction of C74 gives for such a value one of the XDR type with the same encoding; with `--use-indexer` default arms are not written, so they need no condition (`DefaultsWritten`). Converse, with `--use-union` or without default arms, from C53: the encoding of a value of the XDR type is read, so the value read has agreeing discriminants (C91) and writes it. Witnesses: a foreign discriminant, a maximum length, a gap in an enum |
| C93 | Pairs of runs. By C92 without the maximum lengths, which the generated code does not depend on (C56), the bytes encode a value of the earlier interface; it is one of the later (C83), which the second program reads and writes back (C53); the value read has agreeing discriminants (C91). `RpcgenProofs/Unbounded.lean` carries the conditions over from the file to the file without maximum lengths. Witnesses: a gap in an enum, a foreign discriminant |
| C94 | C81 with the bounds it asks for derived from the interface. No type always contains itself (C89), so by induction on rank every type has a number of parts all its values have, and the finitely many types of a program have a greatest (`Proofs/Linear.lean`, `C81_linear_partial`). What holds of the types of all declarations holds of the fields of all variants (`RpcgenProofs/EveryType.lean`); with no fixed length 0 (`NoEmptyArrays`, `Spec/NoEmpty.lean`) every generated type takes four bytes or more, by induction on rank again, so elements of lists do (`RpcgenProofs/Elements.lean`). Witnesses for both conditions |
| C95 | C75 with its bounds derived from the interface: elements of lists take four bytes or more (C94), and the finitely many types of a program have a greatest element size and a greatest fixed length. Without opaque data of variable length in the interface, and with opaque data of fixed length in no arm of a union (where it becomes one of variable length), none is reached from any generated type |
| C96 | Types that mention each other without a cycle have ranks, at most the number of definitions; by induction on the rank and the height of a type, the depth `(greatest height + 1) * (definitions + 1)` is enough. A cycle among generated types comes from one among the names of the interface, since every type a generated item mentions is a type the definition names, or `VariableArray`, which mentions none. The list of C58 for the other direction |
| C97 | The least and the greatest size of a type as an inductive relation on definitions (`DefSize`). The inputs accepted are the bytes of `DefinedF` (C86), the messages written the encodings of `DefinedL` (C92); both are within the limits by induction on these relations |
| C98 | The least and the greatest size of a Rust type as an inductive relation (`Wire.TypeSize`), a table without readers or writers. Every form of a value (`Wire.Form`, C84) is within the limits by induction on that table; inputs and messages are forms by C84 |
| C99 | A form of a list of members is split at a member (`Wire.Forms`, C84); what is in front has a fixed length by C98, and what follows is read by C84 |
| C100 | Relations between the types of two programs that relate only types of one kind whose parts are related again (`Wire.Layout`, a bisimulation). A form of a value (`Wire.Form`, C84) for the one type is a form for the other, by induction on the form. The calls to the serializer give the same bytes, by induction on the value |

## 5. What the proofs found

Codec:

* Text that is not UTF-8 leaves the input before its padding: an implementation that catches that error and
  goes on reads everything after it from the wrong place (C76). Other failures leave a word boundary.
* What a value that cannot be written has already added stays in the output. A `Serialize` impl that catches the
  failure of an element and writes another instead sends the first half of the one and then the other: `Some(pair)`
  with a failing second half, replaced by `None`, is read as `Some((7, 0))` (C82).
* Variable-length opaque data are given their memory, zeroed, before any of it is read, as much as the count
  says: four bytes `ff ff ff ff` request 4 GiB (C75). A maximum length in the interface does not help.
* A list whose elements take no bytes (`Vec<()>`, or `z l<>` with `typedef int z[0]` in generated code)
  is decoded in as many steps as its count says: four bytes make 2^32 (C81).
* A string or byte buffer whose content is complete but whose padding bytes are missing makes `from_bytes`
  panic (slice out of range) instead of reporting `NotEnoughData` (C07).
* Lengths are cast `as u32`: 2^32 elements are announced as 0 (C18).
* `#[derive(XdrIndexer)]` announces a tuple of as many elements as the number of the variant and reads ten
  elements at most, `#[derive(XdrUnion)]` too. Variants with more fields are written and then panic
  when read (C25).
* Decoding nests as deep as the input says: a list of n elements in the style of RFC 4506 needs a stack of
  size n (C58).

Parser:

* A name beginning with `void` cannot be used where a declaration starts (C35). `char` and `short` are not
  reserved words and are read as names when no blank follows; `unsigned char;` declares a variable named
  `char`, `unsigned char ;` is an error (C61).
* `#[derive(XdrUnion)]` panics at compile time on an enum without any field, both macros on named fields
  and structs (C62). `#[derive(XdrIndexer)]` on an enum without variants returns `match self { , _ => .. }`,
  which is not Rust (`C62_indexer_empty`).
* `declaration` tries four alternatives that each begin by reading the type, so a type at the head of a
  plain declaration is read four times, and anonymous structs nested n deep 4^n times: a text of 300
  characters keeps the tool busy for hours (C63).
* A file of blanks only is an error (C39); a `%` line must end with a newline.

Generator:

* Without flags, enums with negative numbers get wrong numbers on the wire or panic, and so does a member
  with number `i32::MAX` (C43). With indexer, an unknown number decodes as the smallest member (C45).
* Union labels are resolved as `u32`: a negative label is an error, a constant that does not fit falls back
  on the enum member of the same name. A literal label names a variant `1u32`, which is not Rust.
* Cyclic constants and cyclic typedefs recurse forever (C42, C52). Errors inside a constant are replaced by
  "not found".
* With indexer a default arm cannot be written (`unimplemented!()`); without flags it is one number (C48).
* Opaque data in union arms: fixed opaque becomes `VariableArray` with a length on the wire; a default arm
  with opaque data gets no attribute and is written one word per byte; an array of a typedef'd array of
  opaque loses the inner array (C53).
* With use-union the discriminant of a variant is an ordinary field: a value built with that of another case is
  written without error, and read back as the other case, or not at all (C91); what is written need not be a value of
  the XDR type (C92).
* With std traits, enums outside struct fields (arms, discriminants, arrays) are written by position (C53).
* Maximum lengths are dropped (C56); `[T; NAME]` does not compile for constants; more than 32 elements do
  not compile.
* `void` members, `bool` unions without `TRUE` or `FALSE`, names like `_` or `_1`, fields called `self`,
  a label `u32::MAX` panic (C57).
* A field `Type` becomes the bare keyword `type` (C59); names that differ in case or underscores only become
  one (C60).
* A struct with itself as a plain member is given a `Box` of itself, so `Default::default()` never returns
  (C64). With use-union, the default variant of a union comes without regard to the discriminant: if the
  first member of the discriminant's enum is not the least label, or selects a case although there is a
  default arm, no input is ever read as the default (C64). With indexer the default of a union with default
  arm panics when written (C64).
* Constants: negative numbers are errors. A second name for a constant of 2^32 or more, and a constant defined
  by an enum member, give source that does not compile (C65).
* In a union on `bool`, labels other than `TRUE` and `FALSE` (such as `case 1:`) are dropped together with their
  arms, without an error (C66).

* Constants keep their spelling and become items of the generated file. A constant called `value`, `index` or
  `v` takes the place of the variable of the same name in generated functions, `Ok` or `Err` those of the
  prelude, and a Rust keyword is printed as it is: none of these files compiles. Nor does a constant `FIELDS` as
  the length of opaque data in a structure: serde's derive has a constant of that name (C71).
* The derives are not hygienic in types: an `XdrIndexer` or `XdrUnion` enum called `S`, or with a field whose type is
  called `A` or `D`, clashes with the type parameters of the derived impls (C71).
* With indexers or unions an enum or union with a variant called `Error` does not compile: `Self::Error` in the
  generated impl is ambiguous, which rustc denies (C71).
* A structure with itself as its first member, `struct loop { loop again; };`, is boxed and compiles; decoding it
  overflows the stack on every input (C89).
* Only a member whose type is the name of the structure itself is boxed. Two structures that contain each other, a
  structure that contains itself through a typedef, and a union that contains itself have infinite size and do
  not compile (C71).
* With std traits, arrays of and pointers to enums in structures do not compile: the attribute the tool adds
  is for the enum itself (C71).
* A structure called `u8` is taken for the elements of opaque data in the tool's check for recursion: a member
  `opaque a[4]` in it is boxed, which does not compile (C71).
* A union on `int` or on `bool` with one label only does not compile with use-union; neither does a union with a
  default arm and a label called `Default` (C71).
* Without flags, the decoder of an enum or union also takes the numbers that are left out below the largest
  one, and takes a default arm for one number only, the first above the labels, be it one of the discriminant or
  not (C74, C86). A type name that is not defined but equals another one in camel case is taken for that: `Foo` for
  `foo` (C74).
* Without flags the numbers an enum or union leaves out are made into variants one by one: `enum e { A =
  2147483646 };`, 26 characters, gives more than 2·10^9 characters of source (C80). Otherwise the source is at
  most quadratic in the interface.
* A program generated with `--use-indexer` reads a member its enum does not have yet as the member of least number; one
  generated without flags reads a new label between those it knows as an arm without content, and goes on in
  the middle of that arm (C87). With `--use-union` and without `--use-indexer` neither happens.
* Asked for both impls of unions (which the flags of the tool cannot do), `gen_code` writes patterns with one
  field for variants with two.

## 6. Testing the theorems

`seeded/mutants.py` lists wrong programs: edits of one model definition as a realistic bug would make them.
`tools/mutate.py` applies each to a scratch copy, rebuilds, replaces every proof that fails by `sorry` there
and goes on, and finally asks Lean which theorems of the manifest rest on a failed proof. One line per
attempt is in `seeded/LOG.jsonl`, with the theorems that failed and those tightened afterwards. (Earlier lines
call `C53_conforms_partial` by its former name `C53_conforms`, `C72_tame` and `C72_tame_exact` `C72_translates_partial` and `C72_exact_partial`, `C57_translatable_violated` `C72_panic_violated`.) `seeded/mutants2.py` is a second list, of 150, `seeded/mutants3.py` a third, of 61, `seeded/mutants4.py` a fourth, `seeded/mutants5.py` a fifth,
`mutants6.py` to `mutants10.py` are the later ones; those of `mutants10.py` were tried with the modules of C84 and C98 to C100 and what they import, not with the others.

Three edits of the reading of enum items by the derive macros (SY01, SY03, SY04: commas inside `<>`, a comma at the end, several
attributes) broke nothing when first tried: C62 began from the items read. `C62_written` and its three companions, which begin from the tokens of the source, were
added for them, and fail with each of the three.

Correction of the log. Until the fifth list the script could not go past some failures (an example with a comment, which was left
standing alone, a proof by cases with a `:=` in a case). The build then stopped, and theorems that had not been rebuilt were logged as
failed. This concerned 94 lines, with 3430 failures. Those lines are marked `corrected`: `theorems_failed` now keeps
the 1678 theorems whose proof uses a lemma that was seen to fail (by the dependencies of the theorems in the
unedited project), the other 1752 are in `theorems_not_rebuilt`, about which nothing is known. In one of them (Z15) the
edited file itself did not compile, so it tested nothing (`invalid`); RU01 of the fifth list takes its place. 17 of the 94 were left without evidence for a
property they were meant to break: Q32, Q35, Q36, Q37, Q38, Q39, Q41, Q43, Q44, Q57, Z09, Z12, Z15, TT04, TT28,
TT30, WW01. They are run again with the corrected script; a later line with the same id replaces the earlier one.

`tools/automut.py` makes edits without a list: it picks definitions of the model and changes an operator, a number, a
constant or a branch. Edits after which the edited file itself no longer
compiles are not programs and are not counted (33 of the first 218). Its first run has found seven edits that broke no theorem or example. Three change nothing that
can be observed: `Item.apart` for aliases (the tool writes none), one more unit of fuel in `sepTail`, and
`useTokens` of the empty list (never reached). Four were gaps, closed since: the texts of `Error.debug` and `Constant.debug`
(examples), `EnumItem.locals` (`C71_needed`) and a name in `usedTypes` (`importedNames`).

## 7. Trusted base

* Lean 4.33.0's kernel. No axioms of our own, no `sorry`, no `native_decide`, no `bv_decide`.
* The model as a reading of the Rust code, and of serde, serde_derive, nom, std and proc_macro2, with the
  citations in the comments.
* The specifications in `Verif/Spec`.

The axioms each theorem depends on (`tools/axioms.py`):

<!-- axioms -->
| Axioms | Theorems |
|---|---|
| none | 3: C26_unsupported_read, C54_effects, C54_exclusive |
| propext | 36: C07_violated, C12_read_none, C24_read_rejected, C26_unsupported_write, C43_max_panics, C43_negative_gap_panics, C43_violated, C57_bool_union_violated, C57_digit_violated, C57_enum_max_violated, C57_label_max_violated, C57_negative_violated, C57_path_words_violated, C57_translatable_violated, C57_underscore_violated, C57_void_member_violated, C59_violated, C60_violated, C62_indexer_expands, C62_indexer_tokens, C62_union_discriminant, C63_same_parser, C74_default_violated, C74_enum_gap_violated, C74_undefined_violated, C75_generated_violated, C76_name_violated, C76_same, C81_generated_violated, C82_option_violated, C83_flags_violated, C83_values, C92_enum_gap_violated, C93_discriminant_violated, C93_enum_gap_violated, C95_arm |
| propext, Quot.sound | 120: C02_aligned, C12_read_bool, C12_read_some, C12_write, C13_read, C13_write, C14_write, C16_read, C17_announced_length, C17_announced_length_map, C17_unknown_length, C18_long_violated, C18_truncates, C18_violated, C19_read, C19_write, C20_no_panic, C20_read, C20_write, C21_agree, C21_panic, C24_read, C24_write, C27_write, C31_amplification, C31_four_bytes, C32_bound_irrelevant, C32_unguarded_diverges, C33_append_only, C33_first_error, C33_products, C35_violated, C41_outcome_stands, C49_first, C50_idempotent, C50_no_upper, C53_ambiguous_violated, C53_enum_position_violated, C53_fixed_opaque_arm_violated, C53_negative_violated, C53_opaque_array_violated, C53_position_violated, C54_items, C55_interleaving, C56_dropped, C56_unbounded_values, C58_stack_exhaustion, C59_keywords_partial, C60_distinct_partial, C62_generated_indexer, C62_generated_union, C62_indexer_empty, C62_union_expands, C62_union_tokens, C62_written, C62_written_expands, C66_dropped_violated, C71_constant_keyword_violated, C71_constant_member_violated, C71_default_label_violated, C71_enum_lists_violated, C71_error_label_violated, C71_error_member_violated, C71_field_variable_violated, C71_fields_constant_violated, C71_half_bool_violated, C71_keyword_field_violated, C71_literal_label_violated, C71_long_array_violated, C71_long_opaque_violated, C71_named_length_violated, C71_opaque_arrays_violated, C71_opaque_lists_violated, C71_opaque_pointer_violated, C71_same_field_violated, C71_same_member_violated, C71_same_number_violated, C71_same_type_violated, C71_self_violated, C71_signed_violated, C71_size_violated, C71_twice_violated, C71_type_parameter_violated, C71_typedef_size_violated, C71_u8_violated, C71_undefined_violated, C71_underscores_violated, C71_union_size_violated, C71_variable_violated, C74_default_number_violated, C74_label_violated, C74_maximum_violated, C74_union_gap_violated, C75_bound_violated, C75_opaque_violated, C75_same, C76_aligned_partial, C76_elements, C76_entries, C76_suffix, C79_added, C79_order, C79_selection, C81_bound_violated, C81_same, C81_units_violated, C82_appends, C82_instead_partial, C82_left, C82_same, C82_words, C87_enum_violated, C87_union_violated, C89_no_values, C92_discriminant_violated, C92_maximum_violated, C94_empty_array, C94_self_member, C95_opaque, C96_list |
| propext, Classical.choice, Quot.sound | 282: C01_roundtrip, C03_rfc4506, C03_rfc4506_sound, C04_consecutive, C04_self_delimiting, C05_trailing, C06_exact, C06_pieces, C06_truncated, C06_truncated_types, C07_aligned_no_panic_partial, C07_cut_exact, C07_exact, C07_no_panic_partial, C07_only_padding, C07_unpadded_panics, C08_injective, C08_prefix_free, C09_generated, C09_maps, C09_normalisation, C100_accepted, C100_bytes, C100_front, C100_typed, C100_written, C10_read, C10_write, C11_read4, C11_read8, C11_write, C14_read, C15_padding_ignored, C16_write, C18_lengths_partial, C22_read, C22_write, C23_read, C23_read_unknown, C23_write, C25_indexer_exact, C25_indexer_panics, C25_read_back_partial, C25_union_exact, C25_union_panics, C25_violated, C27_any_order, C27_order_irrelevant, C27_read, C28_accepted_aligned, C28_local, C29_not_enough_data, C30_errors_final, C30_trailing, C31_map_bounded, C31_vec_bounded, C32_linear_depth, C32_stack, C34_error_is_trailing, C34_terminates, C35_parse_print, C35_parse_text, C35_printable, C35_reprint, C35_unambiguous, C36_identifiers, C37_rejected, C37_rejected_readable, C37_whole_text, C38_parsed, C38_value, C39_around, C39_between, C39_blank_file, C40_nonempty, C41_errors_partial, C41_exact, C41_fallback, C41_resolves, C41_unknown, C42_endless, C42_exact, C42_terminates_partial, C42_violated, C43_exact, C43_shifted, C43_undeclared, C43_wire_partial, C44_inverse, C44_wire, C45_members_partial, C45_unknown_violated, C46_cases, C46_undeclared, C47_indexer, C47_indexer_undeclared, C47_union, C47_union_undeclared, C48_indexer_violated, C48_serde_partial, C48_union, C49_idempotent, C49_letters, C49_no_underscore, C50_letters, C51_encoding, C51_fields, C52_cycle, C52_cycle_struct, C52_depth, C52_expansion, C52_removed, C53_conforms_partial, C53_default_violated, C53_indexer_default_violated, C53_opaque_default_violated, C53_text_partial, C56_any_length_violated, C56_violated, C56_written_exact, C57_exact, C57_no_panic_partial, C59_exact, C60_collide_partial, C61_agrees, C61_concat, C61_exact, C61_within_grammar, C62_generated_enum_code, C62_generated_indexer_code, C62_generated_union_code, C62_indexer_code, C62_indexer_deserialize, C62_indexer_serialize, C62_union_code, C62_union_deserialize, C62_union_serialize, C62_written_indexer, C62_written_union, C63_exact, C63_linear_partial, C63_no_constant_violated, C63_violated, C64_endless, C64_endless_violated, C64_ends, C64_enum, C64_indexer_violated, C64_roundtrip_partial, C64_roundtrip_union_partial, C64_text, C64_text_enum, C64_text_union, C64_union, C64_union_violated, C64_value, C65_accepted, C65_declared, C65_exact, C65_member_violated, C65_rejected, C65_value_partial, C65_wide_violated, C66_all_labels, C66_variants_partial, C67_bound, C67_ends, C68_items, C68_opaque_alias, C69_tokens, C70_default, C70_program, C71_compiles_partial, C71_needed, C72_exact, C72_never, C72_only, C72_source, C72_tame, C72_tame_exact, C73_whole, C74_accepted, C74_same, C74_unlimited_partial, C74_values_partial, C74_whole, C75_accepted, C75_all, C75_reserved_partial, C76_ends, C76_extends, C76_text_violated, C77_cut, C77_fault, C77_longest, C77_message, C77_tool, C78_added, C78_errors, C78_fields, C78_never_misread, C78_read, C78_written, C80_numbers_partial, C80_quadratic_partial, C80_quadratic_violated, C80_reserved_violated, C81_linear_partial, C81_work_partial, C83_flags_partial, C83_versions_partial, C84_accepted, C84_front, C84_one_length, C84_unambiguous, C84_written, C85_errors, C85_every_input, C85_not_both, C85_once, C86_bytes, C86_whole, C87_messages_partial, C87_values, C87_whole, C88_no_strings, C88_only_padding, C88_whole, C88_whole_words, C89_answers, C89_returns, C89_self_anywhere, C89_self_member, C89_whole, C90_all, C90_default, C90_exact, C90_failure, C90_generated, C90_generated_all, C90_inside, C90_whole, C91_all, C91_discriminant, C91_exact, C91_injective, C91_plain, C91_reads, C91_whole, C92_exact_partial, C92_values_partial, C92_whole, C92_written, C93_flags_partial, C93_versions_partial, C94_returns, C94_whole, C94_work, C95_accepted, C95_any, C95_fixed, C95_whole, C96_bound, C96_depth, C96_generated, C96_same, C96_source, C96_whole, C97_accepted, C97_whole, C97_written, C98_accepted, C98_one_size, C98_taken, C98_vec, C98_written, C99_array, C99_enum, C99_field, C99_member, C99_union, C99_vec |
<!-- /axioms -->
