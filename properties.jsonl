{"id": "C01", "title": "Round trip", "statement": "For every value v of a supported type, if to_bytes(&v) returns Ok(bs) then from_bytes::<T>(&bs) returns Ok(v), provided every string, byte string, sequence and map inside v has fewer than 2^32 elements and the user-supplied trait impls are inverse to each other.", "quantifier": "every type built from primitives, Option, Vec, arrays, tuples, maps, structs, enums, opaque fields, signed32 fields, XdrIndexer and XdrUnion enums, recursive types included; every value of it", "why_tests_cant": "types and values nest without bound; tests exercise a dozen fixed values", "anchors": ["serde-xdr/src/ser.rs: to_bytes", "serde-xdr/src/de.rs: from_bytes"]}
{"id": "C02", "title": "Output is a whole number of XDR units", "statement": "Whenever to_bytes succeeds, the length of the output is a multiple of four.", "quantifier": "every Serialize implementation, i.e. every finite tree of Serializer calls", "why_tests_cant": "any user type may call the serializer in any nesting and order", "anchors": ["serde-xdr/src/ser.rs: Serializer"]}
{"id": "C03", "title": "Wire format is RFC 4506", "statement": "to_bytes(&v) is byte for byte the RFC 4506 encoding of the XDR value that the README's table associates with v.", "quantifier": "every supported type and value with lengths below 2^32", "why_tests_cant": "the RFC is a rule over all values, a test checks single byte strings", "anchors": ["serde-xdr/src/ser.rs", "serde-xdr/src/opaque.rs", "README.md"]}
{"id": "C04", "title": "Self-delimiting encodings", "statement": "An encoding followed by arbitrary bytes decodes to the original value and leaves exactly those bytes unread, so values written one after the other (tuples, struct fields, array elements) are read back separately.", "quantifier": "every type, every value, every following byte string", "why_tests_cant": "needs all suffixes of all encodings", "anchors": ["serde-xdr/src/de.rs: Seq, Deserializer::read", "serde-xdr/src/ser.rs: SerializeTuple"]}
{"id": "C05", "title": "Trailing data is reported", "statement": "from_bytes of an encoding followed by k>0 extra bytes returns Err(TrailingData(k)).", "quantifier": "every type, value and non-empty extra byte string", "why_tests_cant": "unbounded set of suffixes", "anchors": ["serde-xdr/src/de.rs: from_bytes"]}
{"id": "C06", "title": "Truncated input is never accepted", "statement": "from_bytes of a proper prefix of bytes it accepts never returns Ok; it returns NotEnoughData, or panics when the cut is inside the padding of a string or byte string. For the beginning of a written value the outcome at every cut point is determined: NotEnoughData with the number of bytes missing of the unit of four or eight bytes, of the length, or of the bytes of the text in which the cut is, or the panic exactly in the padding of a text.", "quantifier": "every type, every accepted input, every cut point", "why_tests_cant": "every cut point of every input", "anchors": ["serde-xdr/src/de.rs: Deserializer::read, read_string, read_bytes"]}
{"id": "C07", "title": "No panic on hostile input", "statement": "from_bytes returns Ok or Err, and never panics, whatever the input bytes are. (False of the code for types containing strings or serde byte strings: the padding slice is not length-checked; true for all other types, for inputs of whole units, and for the beginnings of messages that do not end in the padding of a text. For every type, the inputs that panic are exactly those that, after whole values, end in the padding of a text, or come to a panic of the user's own code, to a variant it names that is not there, or to one with too many members.)", "quantifier": "every type and every byte string", "why_tests_cant": "adversarial inputs are unbounded", "anchors": ["serde-xdr/src/de.rs: read_string, read_bytes"]}
{"id": "C08", "title": "Injective encoding", "statement": "Two values of the same type with the same encoding are equal.", "quantifier": "every type, every pair of values", "why_tests_cant": "quantifies over pairs of values of unbounded size", "anchors": ["serde-xdr/src/ser.rs: to_bytes"]}
{"id": "C09", "title": "Decoding then encoding is normalisation", "statement": "If from_bytes(b) = Ok(v) for a type without maps, whose user conversions (if any) are consistent with each other, then v is a value of the type, to_bytes(&v) succeeds, has the same length as b, and decodes to v again. With maps the encoding may only get shorter.", "quantifier": "every type with consistent user conversions, every accepted byte string", "why_tests_cant": "accepted inputs include every non-canonical one", "anchors": ["serde-xdr/src/de.rs", "serde-xdr/src/ser.rs"]}
{"id": "C10", "title": "Narrow integers", "statement": "i8,i16 are written as the 4-byte two's-complement big-endian integer of the same numeric value and u8,u16 as the unsigned one; decoding any 4 bytes yields the value reduced modulo 2^8 or 2^16 (out-of-range values are silently truncated, never rejected).", "quantifier": "every value of each width and every 4-byte input", "why_tests_cant": "2^32 inputs per type", "anchors": ["serde-xdr/src/ser.rs: serialize_i8..serialize_u16", "serde-xdr/src/de.rs: deserialize_i8..deserialize_u16"]}
{"id": "C11", "title": "Full-width integers and floats", "statement": "i32,u32,i64,u64 and the bit patterns of f32,f64 are written big-endian in 4 or 8 bytes and any 4 or 8 bytes decode to the number they denote.", "quantifier": "every value and every input of the right size", "why_tests_cant": "2^64 inputs", "anchors": ["serde-xdr/src/ser.rs: serialize_i32..serialize_f64", "serde-xdr/src/de.rs: read_i32..read_f64"]}
{"id": "C12", "title": "Bool and Option tags", "statement": "bool is written 0 or 1; on input 0 means false or None and every other 32-bit tag means true or Some.", "quantifier": "every 32-bit tag, every payload type", "why_tests_cant": "2^32 tags", "anchors": ["serde-xdr/src/de.rs: deserialize_bool, deserialize_option", "serde-xdr/src/ser.rs: serialize_bool, serialize_none, serialize_some"]}
{"id": "C13", "title": "char", "statement": "A char is written as its scalar value; a 32-bit code decodes to a char exactly when it is a Unicode scalar value, otherwise Err(Convert).", "quantifier": "every 32-bit code", "why_tests_cant": "2^32 inputs", "anchors": ["serde-xdr/src/de.rs: read_char", "serde-xdr/src/ser.rs: serialize_char"]}
{"id": "C14", "title": "Strings are length-prefixed, padded UTF-8", "statement": "A string is written as its byte length, its UTF-8 bytes and zero padding to four; decoding accepts exactly well-formed UTF-8, returning that string, and otherwise returns Err(Encoding).", "quantifier": "every string shorter than 2^32 bytes and every byte string", "why_tests_cant": "all byte strings", "anchors": ["serde-xdr/src/ser.rs: serialize_str, serialize_bytes", "serde-xdr/src/de.rs: read_string"]}
{"id": "C15", "title": "Padding content is ignored", "statement": "Changing the padding bytes of an encoded string, byte string or opaque field never changes what from_bytes returns.", "quantifier": "every payload, every padding content, every following input", "why_tests_cant": "all payload and padding combinations", "anchors": ["serde-xdr/src/de.rs: read_string, read_bytes", "serde-xdr/src/opaque.rs: enumerate_u8"]}
{"id": "C16", "title": "Enum discriminants", "statement": "A derived enum variant is written as its position as a signed 32-bit integer, to_bytes fails with Convert exactly when the position is 2^31 or more; a negative discriminant on input gives Err(Convert) and one past the last variant gives an Err(Custom), never a wrong variant.", "quantifier": "every enum definition, every variant, every 32-bit discriminant", "why_tests_cant": "2^32 discriminants times every enum", "anchors": ["serde-xdr/src/ser.rs: serialize_unit_variant and the other variants", "serde-xdr/src/de.rs: Enum::variant_seed"]}
{"id": "C17", "title": "Sequences need a length", "statement": "Serializing a seq or map of unknown length gives Err(NotSupported); otherwise the 4-byte count written is the announced length modulo 2^32, whatever number of elements follows.", "quantifier": "every announced length and element list", "why_tests_cant": "all call sequences", "anchors": ["serde-xdr/src/ser.rs: serialize_seq, serialize_map"]}
{"id": "C18", "title": "Lengths are not truncated", "statement": "to_bytes never succeeds with an encoding that decodes to something else because a length does not fit in 32 bits. (False of the code: `size as u32` truncates silently for 2^32 or more elements.)", "quantifier": "every string, byte string and sequence length", "why_tests_cant": "a failing input is larger than 4 GiB", "anchors": ["serde-xdr/src/ser.rs: serialize_bytes, serialize_seq, serialize_map"]}
{"id": "C19", "title": "Fixed opaque", "statement": "opaque::fixed writes N bytes followed by zero padding to four and no length, and reads them back.", "quantifier": "every N and every byte array", "why_tests_cant": "all lengths modulo four and beyond", "anchors": ["serde-xdr/src/opaque.rs: fixed"]}
{"id": "C20", "title": "Variable opaque", "statement": "opaque::variable writes the same bytes as serialize_bytes (count, bytes, zero padding) and reads them back; a declared count larger than the data present gives NotEnoughData and never panics.", "quantifier": "every byte vector and every input", "why_tests_cant": "all lengths and all inputs", "anchors": ["serde-xdr/src/opaque.rs: variable, enumerate_u8, enumerate_u32"]}
{"id": "C21", "title": "Two ways of reading byte strings agree", "statement": "For every input that is long enough to hold the padding, reading with opaque::variable and with serde's byte buffers gives the same bytes and leaves the same rest.", "quantifier": "every input", "why_tests_cant": "all inputs", "anchors": ["serde-xdr/src/opaque.rs: variable::deserialize", "serde-xdr/src/de.rs: read_bytes"]}
{"id": "C22", "title": "signed32 fields", "statement": "A signed32 field is written as the i32 its AsRef gives; reading an i32 that TryFrom rejects gives an Err(Custom) mentioning that number, otherwise the converted value.", "quantifier": "every AsRef/TryFrom implementation and every i32", "why_tests_cant": "2^32 inputs per implementation", "anchors": ["serde-xdr/src/primitive.rs: signed32"]}
{"id": "C23", "title": "XdrIndexer enums", "statement": "The derived impl writes index() then the fields; decoding reads the index, maps it with name_by_index, and rebuilds exactly that variant; if name_by_index rejects the index the result is Err(Custom).", "quantifier": "every enum, every pair of index/name_by_index functions, every input", "why_tests_cant": "user-supplied functions", "anchors": ["serde-xdr-derive/src/lib.rs: xdr_indexer"]}
{"id": "C24", "title": "XdrUnion enums", "statement": "The derived impl writes the fields in order (discriminant first); decoding reads the discriminant, selects the variant with name_by_value and keeps the discriminant in it.", "quantifier": "every enum, every name_by_value function, every input", "why_tests_cant": "user-supplied functions", "anchors": ["serde-xdr-derive/src/lib.rs: xdr_union"]}
{"id": "C25", "title": "Derived enums with many fields", "statement": "A value of any XdrIndexer or XdrUnion variant that can be written can be read back. (False of the code for XdrIndexer variants with ten or more fields, and XdrUnion variants with eleven or more: decoding panics.)", "quantifier": "every number of fields", "why_tests_cant": "boundary over all field counts", "anchors": ["serde-xdr-derive/src/lib.rs: deserialize_tuple(10, ..)"]}
{"id": "C26", "title": "Unsupported requests are errors", "statement": "deserialize_any, deserialize_ignored_any give Err(NotImplemented) and 128-bit integers give Err(Custom), consuming nothing, and writing nothing.", "quantifier": "every input and visitor", "why_tests_cant": "all inputs", "anchors": ["serde-xdr/src/de.rs: deserialize_any, deserialize_ignored_any"]}
{"id": "C27", "title": "Maps", "statement": "A map is written as its size followed by key/value pairs in iteration order and decodes to an equal map whatever the iteration order; on input a repeated key keeps the last value.", "quantifier": "every finite map, every iteration order, every entry list", "why_tests_cant": "all permutations", "anchors": ["serde-xdr/src/ser.rs: SerializeMap", "serde-xdr/src/de.rs: Map"]}
{"id": "C28", "title": "Reads are local", "statement": "Whatever a Deserialize impl does, on success the bytes it consumed form a prefix of the input whose length is a multiple of four and the result depends on nothing after that prefix.", "quantifier": "every Deserialize implementation, every input", "why_tests_cant": "arbitrary user implementations", "anchors": ["serde-xdr/src/de.rs: Deserializer, Seq, Map, Enum"]}
{"id": "C29", "title": "NotEnoughData is exact", "statement": "If decoding fails with NotEnoughData(k) then k>0 and after appending j<k further bytes it fails with NotEnoughData(k-j).", "quantifier": "every Deserialize implementation, every input, every continuation", "why_tests_cant": "arbitrary implementations and continuations", "anchors": ["serde-xdr/src/de.rs: Deserializer::read"]}
{"id": "C30", "title": "Errors are final", "statement": "If decoding fails with any error other than NotEnoughData, it fails with the same error whatever bytes are appended.", "quantifier": "every Deserialize implementation, every input and continuation", "why_tests_cant": "arbitrary implementations and continuations", "anchors": ["serde-xdr/src/de.rs"]}
{"id": "C31", "title": "Element count is bounded by input", "statement": "For element types that always occupy at least four bytes, a decoded sequence has at most (len-4)/4 elements; for zero-sized elements four bytes of input can yield 2^32-1 elements.", "quantifier": "every element type, every accepted input", "why_tests_cant": "worst cases over all inputs", "anchors": ["serde-xdr/src/de.rs: deserialize_seq, Seq"]}
{"id": "C32", "title": "Decoding terminates within linear recursion depth", "statement": "For recursive types in which every cycle passes through an Option, a sequence, a map or an enum, from_bytes terminates for every input with recursion depth linear in the input length. Whatever the type, a larger stack changes no answer that a smaller one gave.", "quantifier": "every environment of guarded recursive types, every input", "why_tests_cant": "termination on all inputs", "anchors": ["serde-xdr/src/de.rs", "rpcgen/src/gen_code.rs: Box<..>"]}
{"id": "C33", "title": "Serialization is append-only and compositional", "statement": "Serializing a value appends bytes to what was written before, independent of it; the encoding of a tuple or struct is the concatenation of its members' encodings.", "quantifier": "every Serialize implementation and every previous output", "why_tests_cant": "all call trees", "anchors": ["serde-xdr/src/ser.rs"]}
{"id": "C34", "title": "Parser totality", "statement": "rpcgen's parse terminates on every input and returns Ok or Err; nested declarations cannot make it loop.", "quantifier": "every character string", "why_tests_cant": "all inputs", "anchors": ["rpcgen/src/parser.rs: parse, declaration, type_specifier"]}
{"id": "C35", "title": "Parse inverts printing", "statement": "Printing any well-formed list of XDR definitions and parsing the text gives the same list back.", "quantifier": "every abstract syntax tree of well-formed definitions", "why_tests_cant": "unbounded syntax trees", "anchors": ["rpcgen/src/parser.rs"]}
{"id": "C36", "title": "Identifiers", "statement": "Every identifier in a parse result is a letter or underscore followed by letters, digits and underscores, and is not an XDR reserved word.", "quantifier": "every input text accepted by parse", "why_tests_cant": "all inputs", "anchors": ["rpcgen/src/parser.rs: identifier", "rpcgen/src/keyword.rs: xdr_reserved"]}
{"id": "C37", "title": "No text is silently dropped", "statement": "parse returns Ok only if the whole text was consumed as a sequence of definitions separated by white space and comments; otherwise it returns an error.", "quantifier": "every input text", "why_tests_cant": "all inputs", "anchors": ["rpcgen/src/parser.rs: parse, specification"]}
{"id": "C38", "title": "Numeric literals", "statement": "A decimal, hexadecimal or octal literal has its mathematical value in the requested integer type, or an error if it does not fit.", "quantifier": "every literal and every integer type", "why_tests_cant": "all literals", "anchors": ["rpcgen/src/parser.rs: Constant::value, TryFrom impls"]}
{"id": "C39", "title": "Blanks and comments are insignificant between definitions", "statement": "Adding white space or /* */ comments before or after definitions does not change a successful parse result. (A text with blanks or comments but no definition at all is rejected.)", "quantifier": "every text and every blank/comment insertion between definitions", "why_tests_cant": "all insertions", "anchors": ["rpcgen/src/parser.rs: comment0, specification"]}
{"id": "C40", "title": "Bodies are never empty", "statement": "Every enum, struct, union, program and version in a parse result has at least one member and every case at least one label.", "quantifier": "every accepted text", "why_tests_cant": "all inputs", "anchors": ["rpcgen/src/parser.rs: enum_body, struct_body, union_body"]}
{"id": "C41", "title": "Constant resolution", "statement": "A symbolic value resolves to the number at the end of its definition chain, constants taking precedence over enum members, the first definition winning; unknown names are errors.", "quantifier": "every set of definitions without cycles", "why_tests_cant": "all definition sets", "anchors": ["rpcgen/src/gen_code.rs: Context::resolve_*"]}
{"id": "C42", "title": "Resolution terminates", "statement": "Resolving any name terminates with a value or an error. (False of the code: cyclic constants or enum members recurse forever; true for acyclic definitions.)", "quantifier": "every set of definitions", "why_tests_cant": "all definition graphs", "anchors": ["rpcgen/src/gen_code.rs: Context::resolve_*"]}
{"id": "C43", "title": "Generated enum numbering (default config)", "statement": "With index complementing, the generated Rust enum gives each XDR member exactly its declared number on the wire, both ways. (Holds for distinct non-negative numbers; false for negative ones.)", "quantifier": "every enum definition", "why_tests_cant": "all enums", "anchors": ["rpcgen/src/gen_code.rs: convert_enum_token"]}
{"id": "C44", "title": "Generated TryFrom and AsRef are inverse", "statement": "With std traits, TryFrom<i32> returns exactly the member whose AsRef<i32> is that number, and an error for numbers that are no member's.", "quantifier": "every enum definition, every i32", "why_tests_cant": "2^32 numbers per enum", "anchors": ["rpcgen/src/gen_code.rs: convert_enum_token"]}
{"id": "C45", "title": "Generated enum indexer", "statement": "With the indexer, index() and name_by_index() are inverse on members. Unknown numbers should be rejected (false of the code: they decode as the smallest member).", "quantifier": "every enum definition, every i32", "why_tests_cant": "2^32 numbers per enum", "anchors": ["rpcgen/src/gen_code.rs: convert_enum_token"]}
{"id": "C46", "title": "Generated union numbering (default config)", "statement": "With index complementing, each case of the generated union has its XDR discriminant on the wire, both ways, for distinct discriminants below 2^31.", "quantifier": "every union definition over integers or enums", "why_tests_cant": "all unions", "anchors": ["rpcgen/src/gen_code.rs: convert_union_token"]}
{"id": "C47", "title": "Generated union traits", "statement": "With the indexer or union trait, each declared discriminant selects its own case, others select the default arm or an error.", "quantifier": "every union definition, every discriminant", "why_tests_cant": "all unions and discriminants", "anchors": ["rpcgen/src/gen_code.rs: convert_union_token"]}
{"id": "C48", "title": "Default arms", "statement": "A union value taken by the default arm keeps its discriminant through decode and encode. (Holds with --use-union only; in default config only one number reaches the default arm and with the indexer writing it panics.)", "quantifier": "every union with a default arm, every discriminant", "why_tests_cant": "all unions and discriminants", "anchors": ["rpcgen/src/gen_code.rs: convert_union_token"]}
{"id": "C49", "title": "upper_camel_case", "statement": "The result contains no underscore, starts with no lower-case letter, and converting twice equals converting once.", "quantifier": "every identifier", "why_tests_cant": "all strings", "anchors": ["rpcgen/src/gen_code.rs: upper_camel_case, capitalize"]}
{"id": "C50", "title": "snake_case", "statement": "The result contains no upper-case letter and converting twice equals converting once.", "quantifier": "every identifier", "why_tests_cant": "all strings", "anchors": ["rpcgen/src/gen_code.rs: snake_case"]}
{"id": "C51", "title": "Generated structs keep their fields", "statement": "A generated struct has one field per declaration, in the same order, so its encoding is the concatenation of the members' encodings.", "quantifier": "every struct definition and context", "why_tests_cant": "all structs", "anchors": ["rpcgen/src/gen_code.rs: convert_struct_token"]}
{"id": "C52", "title": "Typedef expansion", "statement": "With remove_typedef, a typedef name is replaced by the type it stands for, through any chain of typedefs, keeping the opaque attribute; cyclic typedefs recurse forever.", "quantifier": "every set of typedefs", "why_tests_cant": "all chains", "anchors": ["rpcgen/src/gen_code.rs: resolve_type_token"]}
{"id": "C53", "title": "Generated code conforms to RFC 4506 end to end", "statement": "For every text and flags the tool accepts, every XDR value of every enum, struct and union of the interface has a value of the generated Rust type which to_bytes writes as RFC 4506 prescribes for the XDR value, and which from_bytes reads back from those bytes.", "quantifier": "every accepted interface, every value of its types", "why_tests_cant": "all interfaces times all values", "anchors": ["rpcgen/src/gen_code.rs", "serde-xdr/src/ser.rs", "serde-xdr/src/opaque.rs", "serde-xdr-derive/src/lib.rs"]}
{"id": "C54", "title": "Command line flags", "statement": "Whatever flags are given, the configuration never enables both enum encodings, nor both union encodings.", "quantifier": "every combination of flags", "why_tests_cant": "small, but proved for all", "anchors": ["rpcgen/src/main.rs: main"]}
{"id": "C55", "title": "Forward references", "statement": "Definitions may be used before they are defined: constants resolve the same wherever the constant definitions are placed relative to type definitions.", "quantifier": "every interleaving of constant and type definitions", "why_tests_cant": "all interleavings", "anchors": ["rpcgen/src/gen_code.rs: setup_context"]}
{"id": "C56", "title": "Declared bounds", "statement": "A variable-length array or string declared with maximum size n is rejected when longer. (False of the code: bounds are parsed and dropped.)", "quantifier": "every bound and length", "why_tests_cant": "all bounds", "anchors": ["rpcgen/src/gen_code.rs: convert_type_token"]}
{"id": "C57", "title": "Generator panics", "statement": "gen_code returns Ok or Err for every parse result. (False of the code: void struct members, boolean unions without cases, names that collapse to invalid identifiers and others panic.)", "quantifier": "every parse result", "why_tests_cant": "all interfaces", "anchors": ["rpcgen/src/gen_code.rs: gen_code"]}
{"id": "C58", "title": "Recursion depth is not bounded by the type", "statement": "For a recursive type generated from XDR optional data, whatever recursion depth the stack allows, there is a valid message of not more than about twice that many bytes whose decoding exceeds it, although it decodes on a larger stack: from_bytes has no recursion limit.", "quantifier": "every stack limit", "why_tests_cant": "a test fixes one stack size and one message", "anchors": ["serde-xdr/src/de.rs: deserialize_option", "rpcgen/src/gen_code.rs: Box<..>"]}
{"id": "C59", "title": "Field names are not bare keywords", "statement": "A field of a generated struct is never a bare Rust keyword: keywords are written as raw identifiers. (Holds for names without capitals; false of the code for names such as Type, which become the bare keyword type.)", "quantifier": "every struct definition", "why_tests_cant": "the names are arbitrary", "anchors": ["rpcgen/src/gen_code.rs: convert_struct_token", "rpcgen/src/keyword.rs: rust_reserved"]}
{"id": "C60", "title": "Different names stay different", "statement": "Different member, field or type names of one definition become different Rust names. (Holds for names already in the target style; false of the code in general: A_B and AB, aB and a_b.)", "quantifier": "every pair of names", "why_tests_cant": "the names are arbitrary", "anchors": ["rpcgen/src/gen_code.rs: upper_camel_case, snake_case"]}
{"id": "C61", "title": "The exact language of the tool", "statement": "parse returns a list of definitions on a text if and only if the text is derived from that list by the grammar of the XDR language, read with three documented departures: a type name beginning with void cannot begin a declaration, char and short are names unless a blank follows, and unsigned followed by char or short is one type only if a blank follows. Every accepted text is derived from its result by the unmodified grammar, and the concatenation of two accepted texts gives the concatenation of the results.", "quantifier": "every text and every list of definitions", "why_tests_cant": "all texts and all trees; a backtracking parser may take a wrong branch on any of them", "anchors": ["rpcgen/src/parser.rs: parse, specification, type_specifier, declaration, procedure_def"]}
{"id": "C62", "title": "What the derive macros produce", "statement": "XdrIndexer and XdrUnion return code exactly for enums whose variants have no named fields (XdrUnion also needs at least one field somewhere); for an enum without variants what XdrIndexer returns is not Rust. Otherwise the tokens returned are two impls, Serialize and Deserialize, of the enum: they write the variant number (XdrIndexer) and every field once in declaration order, and read them back in the same order; the discriminant XdrUnion reads has the type of the first field of the first variant with fields. For the declaration of a generated enum or union, token by token, these impls do what the generated type means; for a union the discriminant has the type of the switch. The macros see the enum that is written: attributes and visibility are passed over, a comma at the end is allowed, and commas within the angle brackets of a type do not end a field.", "quantifier": "every enum without generics: any attributes, name, number of variants, number and types of fields; every generated enum and union", "why_tests_cant": "the macros run on arbitrary enums", "anchors": ["serde-xdr-derive/src/lib.rs: xdr_indexer, xdr_union"]}
{"id": "C63", "title": "The work of the parser grows with the text", "statement": "There is a constant such that parse, on every text it accepts, does work of at most that constant times the length of the text, counted in attempts to read a type.", "quantifier": "every accepted text, of any length and any nesting of anonymous structs and unions", "why_tests_cant": "a growth rate is about all lengths; a test of any fixed file only shows that one finishes", "anchors": ["rpcgen/src/parser.rs: parse, declaration, type_specifier, struct_body, union_body"]}
{"id": "C64", "title": "Every generated type has a default value, and it is a value like any other", "statement": "Default::default() of every type of a generated file returns a well-typed value: the member with the least number of an enum, the default arm (else the case with the least number) of a union, the defaults of the members of a struct. Written with to_bytes and read with from_bytes it comes back unchanged.", "quantifier": "every interface the tool accepts and whose output compiles, every flag combination, every type of the file, every depth of types inside types", "why_tests_cant": "a default goes through all types inside the type, so recursive interfaces matter, and which member is least depends on the numbers in the interface; a test covers one interface", "anchors": ["rpcgen/src/gen_code.rs: convert_enum, convert_union, convert_struct, gen_token", "serde-xdr/src/ser.rs: to_bytes", "serde-xdr/src/de.rs: from_bytes"]}
{"id": "C65", "title": "Constants keep their number", "statement": "Every const of the interface becomes one Rust constant, in the order of the file, of the same name and with the number the interface gives it: u32 if it fits, else u64. A constant whose number fits neither is an error. The constant of the compiled file has that number.", "quantifier": "every interface, every constant, every number and every chain of constants", "why_tests_cant": "literals of any size and base and chains of any length; the sizes at the type boundaries matter", "anchors": ["rpcgen/src/gen_code.rs: constants_token, convert_value_token, gen_code"]}
{"id": "C66", "title": "Every case of a union is a variant", "statement": "The enum generated for a union has one variant for each case label, with the name of the label in camel case and the type of its arm, then one variant for the default arm, and besides only reserved variants, and these only where a variant's position is its number.", "quantifier": "every interface the tool accepts, every union in it, every number and order of labels, every flag combination", "why_tests_cant": "unions with any number of labels in any order and arms of any type; a test shows one", "anchors": ["rpcgen/src/gen_code.rs: convert_union_token, convert_case_token"]}
{"id": "C67", "title": "The generator ends on interfaces without circular definitions", "statement": "If no constant or enum member is defined through itself and no typedef leads to itself, generation ends, with source or an error, after following no more names than the interface defines.", "quantifier": "every interface without circles, of any size and any length of chains, every configuration", "why_tests_cant": "termination over all inputs; tests only show that some inputs end", "anchors": ["rpcgen/src/gen_code.rs: gen_code, resolve_value, convert_type_token, convert_primitive_token"]}
{"id": "C68", "title": "One Rust item per type definition", "statement": "The generated source has, in the order of the interface, exactly one item of the same kind for each enum, struct and union, under the name in camel case, with one field per member and one variant per enum member besides reserved ones; no items for typedefs when they are removed, otherwise one alias for each, where a typedef of opaque data is an error; and nothing else.", "quantifier": "every interface the tool accepts, every configuration", "why_tests_cant": "nothing lost and nothing invented is a statement about all definitions of all files", "anchors": ["rpcgen/src/gen_code.rs: types_token, convert_enum_token, convert_struct_token, convert_union_token"]}
{"id": "C69", "title": "The printed source reads as the tokens that were put together", "statement": "For every interface the tool accepts and all flags, the text it prints, split into tokens by Rust's lexical rules, gives exactly the tokens the generator put together: identifiers, raw identifiers, numbers with suffixes, strings, lifetimes and punctuation are never glued to their neighbours, split, lost or added.", "quantifier": "every interface text the tool accepts, every combination of flags", "why_tests_cant": "names and numbers of an interface occur at any place of the templates; a sample of names says nothing about the others", "anchors": ["rpcgen/src/main.rs: main", "rpcgen/src/gen_code.rs: gen_code, convert_enum_token, convert_struct_token, convert_union_token"]}
{"id": "C70", "title": "The printed text is the program the other properties speak of", "statement": "For every interface the tool accepts and all flags, the printed text, parsed by Rust's grammar and interpreted by the rules for constants, types, trait impls, match expressions, serde's and serde-xdr-derive's derives, defines exactly the types, with the fields, variants, wire numbers, conversions and defaults, that the properties about generated types speak of. In particular the conformance of generated types to RFC 4506 holds of the printed text.", "quantifier": "every interface text the tool accepts whose generated file has usable names, every combination of flags", "why_tests_cant": "a text is right only if every template is right for every name, number, type and number of members it is filled with", "anchors": ["rpcgen/src/main.rs: main", "rpcgen/src/gen_code.rs: gen_code, convert_enum_token, convert_struct_token, convert_union_token, convert_type_token"]}
{"id": "C71", "title": "The generated source compiles", "statement": "For every interface and all flags for which the tool prints source, rustc accepts the source: no name is defined twice or is a keyword, every type that is used is defined, has a finite size and has the traits the generated derives and attributes ask of it, discriminants differ, matches are exhaustive, and no constant, type or variant is taken for a name that the generated functions and derives use.", "quantifier": "every interface text the tool accepts, every combination of flags", "why_tests_cant": "whether the source compiles depends on the names, numbers and types of the whole interface together", "anchors": ["rpcgen/src/gen_code.rs: gen_code, convert_enum_token, convert_struct_token, convert_union_token, convert_type_token", "rpcgen/src/main.rs: main"]}
{"id": "C72", "title": "Which interfaces the tool has source for", "statement": "The tool prints source for an interface if and only if its constants fit 64 bits without sign, members of enums have numbers of 32 bits other than 2^31-1 (without traits, with no negative number missing between them), union labels have numbers of 32 bits without sign other than 2^32-1, unions switch on integers, bool (with a case TRUE, FALSE or default) or names, all types in use are those of the README's table, the names of types, variants and labels have a letter before any digit, and no structure member is self, super, crate or Self. The source is then the same for every depth of the stack that suffices. For every other interface nothing is printed: there is an error, a panic (C57) or no end (C42, C52).", "quantifier": "every interface text that parses, every combination of flags", "why_tests_cant": "acceptance depends on every number, name and type of the interface, through any number of names", "anchors": ["rpcgen/src/gen_code.rs: gen_code, Context::resolve_value, convert_const_token, convert_enum_token, convert_struct_token, convert_union_token, convert_type_token", "rpcgen/src/main.rs: main"]}
{"id": "C73", "title": "From the interface to the bytes", "statement": "For every interface within the tool's limits (names with a letter that stay different and are no keywords in Rust's case, numbers in range, lengths up to 32, types of the README's table, opaque data where the tool supports it, enums numbered as the flags require, no type inside itself) the tool prints one text whatever its stack; this text is a Rust program that rustc accepts; and every type in it writes and reads the values of its definition exactly as RFC 4506 says. Nothing is assumed of what the tool does with the interface.", "quantifier": "every interface text that meets the listed conditions, every combination of flags, every definition in it and every XDR value of the definition", "why_tests_cant": "it composes parsing, name resolution, generation, the meaning of the printed text and the codec, for all interfaces and all values", "anchors": ["rpcgen/src/main.rs: main", "rpcgen/src/parser.rs: parse", "rpcgen/src/gen_code.rs: gen_code", "serde-xdr/src/ser.rs: to_bytes", "serde-xdr/src/de.rs: from_bytes"]}
{"id": "C74", "title": "Generated decoders accept values of the interface only", "statement": "Whatever bytes a decoder of generated code accepts, the value it returns is a value of the type as the interface defines it by RFC 4506; it encodes to what RFC 4506 prescribes for that value, in as many bytes as were read, and these bytes decode to it again. In particular no value is accepted that breaks a maximum length, has a number that is no member of its enum, or takes an arm that is none of its union.", "quantifier": "every interface text, every combination of flags, every enum, structure and union in it, every byte string", "why_tests_cant": "it ranges over all byte strings for all interfaces; tests only feed a decoder bytes someone thought of", "anchors": ["rpcgen/src/gen_code.rs: gen_code, convert_enum_token, convert_struct_token, convert_union_token", "serde-xdr/src/de.rs: from_bytes", "serde-xdr-derive/src/lib.rs: XdrIndexer, XdrUnion"]}
{"id": "C75", "title": "Memory requested before the data is there", "statement": "While decoding, the memory requested ahead of the data it is for stays in proportion to the input: at most one list element for every four bytes of input and one byte of opaque data per byte of input, and when decoding fails besides at most 1 MiB for each list still open and the length of one fixed-length opaque. A count in the input cannot make the decoder request more. (False of the code for opaque data of variable length: four bytes request up to 4 GiB.)", "quantifier": "every type, every size of element types in memory, every byte string, accepted or not", "why_tests_cant": "the bound must hold for every hostile byte string; tests do not observe allocation", "anchors": ["serde-xdr/src/opaque.rs: enumerate_u8", "serde-xdr/src/de.rs: Seq::size_hint, deserialize_seq, deserialize_map"]}
{"id": "C76", "title": "Going on after a failure", "statement": "An implementation of Deserialize, or a visitor, may catch the failure of a part and go on. What it is left with is a suffix of what it was given, so nothing is read twice; a sequence or map hands out as many elements as announced, those that failed included, so leaving out what fails comes to an end; and reading goes on at a word boundary. (The last is false of the code for text that is not UTF-8: its padding is not skipped.)", "quantifier": "every Deserialize implementation, whatever it catches, and every byte string", "why_tests_cant": "it ranges over all implementations and all ways a part can fail", "anchors": ["serde-xdr/src/de.rs: Deserializer::read, read_char, read_string, read_bytes, Seq::next_element_seed, Map::next_key_seed"]}
{"id": "C77", "title": "What errors say", "statement": "An encoding error says what is wrong with the text: text that is announced with its length and is all there is refused with such an error exactly if it is not valid UTF-8, and then the position in the error is the length of its longest valid beginning, and the length in the error is that of the start of a character found there (1 if none), and is missing exactly if more bytes could complete the text. The text of an error determines the error: two errors that print the same are the same, and what the tool prints on standard error tells the kind of mistake and the name or number it is about.", "quantifier": "every byte string, whatever follows it; every two errors; every two runs of the tool", "why_tests_cant": "all byte strings, and texts of messages that contain quotes, braces and escapes", "anchors": ["serde-xdr/src/de.rs: read_string", "serde-xdr/src/error.rs: Error, Display", "rpcgen/src/error.rs: Error", "rpcgen/src/parser.rs: Constant::value", "rpcgen/src/main.rs: main"]}
{"id": "C78", "title": "Later versions of a program's types", "statement": "Suppose a later version of a program renames types' fields or variants, changes between named fields and tuple fields, and adds variants at the end of enums. Then it writes the values of the old types as the same bytes; it reads whatever the old version accepted, as the same values, and refuses with the same error what the old version refused for any reason but an unknown number. The old version reads what the new one wrote as the same value or not at all, and refuses an added variant naming its number. A field added at the end of a struct is different: the old version refuses the longer value, saying how many bytes are left, and the new one accepts no old value, unless the field takes no bytes.", "quantifier": "every two sets of type definitions of which the second is a later version of the first, every type, value and byte string", "why_tests_cant": "all pairs of versions, all values, and all byte strings, malformed ones included", "anchors": ["serde-xdr/src/ser.rs: Serializer", "serde-xdr/src/de.rs: Deserializer", "serde-xdr-derive/src/lib.rs: XdrIndexer, XdrUnion"]}
{"id": "C79", "title": "Definitions are independent", "statement": "The source made for a definition depends on the definitions whose names it uses, directly or through others, and on no others: leaving out definitions that none of the rest uses leaves the source of the rest as it is and in the same order, and adding definitions at the end adds source at the end. If no name is defined twice, the order of definitions does not matter: any other order is accepted as well, and gives the same items in another order.", "quantifier": "every list of definitions, every selection closed under use, every permutation, every setting of the flags", "why_tests_cant": "all interfaces and all ways to arrange them", "anchors": ["rpcgen/src/gen_code.rs: gen_code, setup_context, Context::resolve_name, Context::is_enum_type, resolve_type_token"]}
{"id": "C80", "title": "The generated source is not much longer than the interface", "statement": "For an interface of n characters the tool prints at most 6000*(n+1)^2 characters of Rust source.", "quantifier": "every interface text that is accepted, every setting of the flags", "why_tests_cant": "all texts; a test has a handful of small ones, and the length depends on the numbers in the text and on chains of typedefs", "anchors": ["rpcgen/src/gen_code.rs: gen_code, convert_enum_token, convert_union_token, convert_type_token, convert_struct_token", "rpcgen/src/main.rs: main"]}
{"id": "C81", "title": "The work of decoding is in proportion to the input", "statement": "Decoding, whether it succeeds or not, calls at most k Deserialize implementations plus 3*W for every four bytes of input, counting each word of opaque data copied as a call: k is the number of parts every value of the type has, W the largest number of parts of what an option contains, of an element of a list, of an entry of a map or of the fields of a variant. (False of the code for lists whose elements take no bytes: four bytes make it call up to 2^32.)", "quantifier": "every type, every byte string, accepted or not", "why_tests_cant": "the bound must hold for every hostile byte string and every type, nested or recursive; tests observe results, not work", "anchors": ["serde-xdr/src/de.rs: deserialize_seq, deserialize_map, deserialize_option, Seq::next_element_seed, Map::next_key_seed", "serde-xdr/src/opaque.rs: enumerate_u8", "serde-xdr-derive/src/lib.rs: visit_seq of the generated visitors"]}
{"id": "C82", "title": "Writing on after a failure", "statement": "A Serialize implementation may catch the error of an element and write something else instead. Whatever it does, what was written before stays, whole four-byte words are added, and what is added does not depend on what is there. The message is then that of what was written instead, as if the failed element had not been tried. (False of the code: the encodings of the calls before the one that failed stay in the message, exactly these.)", "quantifier": "every Serialize implementation, including those that catch errors and go on, every value and every place at which it fails", "why_tests_cant": "ranges over all implementations and all places of failure; the tests never catch an error of a part", "anchors": ["serde-xdr/src/ser.rs: Serializer, to_bytes, serialize_element, serialize_field, serialize_key, serialize_value, serialize_bytes, serialize_seq"]}
{"id": "C83", "title": "Versions of an interface understand each other", "statement": "Programs generated from an interface and from a later version of it, each with any flags, understand each other on every value of the earlier one: both write it as the same bytes, and both read it from them. A later version may have further enum members, union labels and definitions, larger maximum lengths, other names of fields, members, labels and constants, and another order, as long as the numbers are the same. In particular programs generated from one interface with different flags understand each other. (False of the code where C53 is: an enum numbered otherwise than by position, used under a typedef name, is written differently with --use-std-trait.)", "quantifier": "every two interface texts of which one is a later version of the other, every two settings of the flags, every value of the earlier interface", "why_tests_cant": "ranges over pairs of interfaces and of flags and all values; tests generate from one interface at a time", "anchors": ["rpcgen/src/gen_code.rs: gen_code, convert_enum_token, convert_union_token, convert_struct_token, convert_type_token", "rpcgen/src/main.rs: main", "serde-xdr/src/ser.rs: to_bytes", "serde-xdr/src/de.rs: from_bytes"]}
{"id": "C84", "title": "Exactly which bytes are accepted", "statement": "from_bytes returns the value v for the bytes b if and only if b is one of the forms listed for v: each word as its type reads it (any nonzero word is true or Some, of narrow integers only the low bits count, a char is a Unicode scalar value, an enum position is below 2^31 and has a variant), lengths followed by that many bytes or members, padding of up to three bytes of any content, text of valid UTF-8, maps in which the last of the entries with one key counts, and hand-written conversions and variant names as the user's code says, with at most nine members after the discriminant. A value inside a message is taken off its front under the same condition. No bytes are listed for two values, no form begins with another one, what to_bytes writes is listed, and without maps all the forms of a value have the length of its encoding.", "quantifier": "every type, every value, every byte string, whatever the hand-written conversions do", "why_tests_cant": "an exact description of the accepted inputs ranges over all types and all byte strings, most of which no encoder writes; tests show single inputs", "anchors": ["serde-xdr/src/de.rs: from_bytes, Deserializer, Seq, Map, Enum", "serde-xdr/src/opaque.rs: fixed, variable", "serde-xdr/src/primitive.rs: signed32", "serde-xdr-derive/src/lib.rs: xdr_indexer, xdr_union"]}
{"id": "C85", "title": "Exactly which error", "statement": "Which error from_bytes returns is a function of the type and the input that a table by type gives: the number of bytes missing where the input ends, the place where a text is not UTF-8, a word that is the number of no character or the position of no variant, a number or value the user's code rejects, or the number of bytes behind the value. Every input is accepted, rejected with exactly one error, or a panic of C07, and no input is two of these.", "quantifier": "every type (recursive ones included) and every byte string", "why_tests_cant": "the inputs that are rejected are unbounded, in number and in length, and so are the types", "anchors": ["serde-xdr/src/de.rs: from_bytes, read, read_char, read_string, read_bytes, Enum::variant_seed", "serde-xdr/src/opaque.rs: enumerate_u8", "serde-xdr/src/primitive.rs: signed32::deserialize", "serde-xdr-derive/src/lib.rs: XdrIndexer, XdrUnion"]}
{"id": "C86", "title": "Exactly which bytes the generated decoders take", "statement": "For a file rpcgen translates, from_bytes of a generated enum, structure or union accepts exactly the byte strings that a table read off the interface lists for some value of the type: the encoding of RFC 4506 of the members in order, where any word but zero is true or a pointer that is there, of a char or short only the low bits count, padding may be anything, maximum lengths are not looked at, with --use-indexer a number of no member of an enum stands for the member of least number, and without flags a number or label between those of the definition is taken too. What is read is written as RFC 4506 prescribes for that value. No byte string is listed for two values of different encodings, and none that is listed goes on where another ends.", "quantifier": "every interface text in the supported fragment whose type names are defined (default arms with --use-union), every set of flags, every enum, structure and union in it, every byte string", "why_tests_cant": "interfaces, values and byte strings are unbounded, and that nothing else is accepted is a statement about all byte strings", "anchors": ["rpcgen/src/gen_code.rs: convert_struct_token, convert_enum_token, convert_union_token, convert_type_token", "serde-xdr/src/de.rs: from_bytes", "serde-xdr-derive/src/lib.rs: XdrIndexer, XdrUnion"]}
{"id": "C87", "title": "A program does not misread the messages of a later version of its interface", "statement": "Given a program generated from an interface and any message (an RFC 4506 encoding of a value) of the same type of a later version of that interface, in which maximum lengths have grown, enums have further members and unions without default further labels, the generated decoder, whatever follows the message, either fails or reads just that message: it stops where the message ends, and what it has read is written as the same bytes. An unknown member or label is never read as something else.", "quantifier": "every interface text in the supported fragment, the flags under which unions keep to their labels (--use-union) and enums are not indexed by XdrIndexer, every later version of it, every enum, structure and union in it, every value of the later version, every continuation of the input", "why_tests_cant": "pairs of interfaces, messages and what follows them are unbounded; a misreading needs just the right number in just the right place", "anchors": ["rpcgen/src/gen_code.rs: convert_struct_token, convert_enum_token, convert_union_token", "serde-xdr/src/de.rs: from_bytes", "serde-xdr-derive/src/lib.rs: XdrIndexer, XdrUnion"]}
{"id": "C88", "title": "When generated decoders panic", "statement": "Take any interface and flags whose printed program is valid Rust, and any type of that program. Decoding it panics on no input of a whole number of four-byte words; if the interface declares no string, it panics on no input at all; and if it does panic, then because the padding of a string is missing at the end of an input that is not a whole number of words. No generated conversion, variant name or variant member is ever a cause.", "quantifier": "every interface text the generator prints a valid program for, all flags, every type of the program, every input", "why_tests_cant": "interfaces and inputs are unbounded, and a panic takes just one combination of a discriminant, an arm and a cut", "anchors": ["serde-xdr/src/de.rs: read_string, read_bytes", "serde-xdr-derive/src/lib.rs: XdrIndexer, XdrUnion", "rpcgen/src/gen_code.rs: convert_enum_token, convert_union_token, convert_struct_token"]}
{"id": "C89", "title": "Generated decoders return", "statement": "Take any interface and flags whose printed program compiles, and in which no structure has itself, or a fixed-length array of itself, as a member. Then decoding any of its types returns on every input, with a recursion depth at most proportional to the length of the input; on an input of whole words, or on any if the interface has no strings, it returns a value or an error. A structure that does have itself as its first member compiles all the same, and its decoder overflows the stack on every input. If it has itself as a later member, no input is accepted; and in the interface such a structure has no values.", "quantifier": "every interface text, all flags, every type of the program, every input", "why_tests_cant": "interfaces, nesting and inputs are unbounded, and not returning cannot be observed", "anchors": ["serde-xdr/src/de.rs: from_bytes, deserialize_struct, deserialize_option, deserialize_seq", "rpcgen/src/gen_code.rs: convert_struct_token, convert_union_token"]}
{"id": "C90", "title": "Exactly which values can be written", "statement": "A value of a type is encoded if and only if each variant of an enum inside it, at any depth, has a number on the wire: its place is below 2^31 for enums numbered by serde, and its own index() returns for enums with XdrIndexer. If it is not encoded, the failure is that of such a variant. In a generated program the only variants without a number are default arms of unions with XdrIndexer, whose index() panics, and variants at place 2^31 or later of serde enums, which are an error. So without use-indexer for unions, or without default arms, and with at most 2^31 variants, every value of every type is encoded.", "quantifier": "every program, type and value of the type; every interface text and all flags", "why_tests_cant": "values are unbounded in size and depth, and each could have the one variant that fails", "anchors": ["serde-xdr/src/ser.rs: to_bytes, serialize_unit_variant, serialize_newtype_variant, serialize_tuple_variant, serialize_struct_variant", "serde-xdr-derive/src/lib.rs: xdr_indexer", "rpcgen/src/gen_code.rs: convert_union_token, convert_enum_token"]}
{"id": "C91", "title": "Which values of generated types come back", "statement": "In a program generated from a supported interface, under any flags, a value of a generated type that is encoded is decoded to the same value exactly if each union variant inside it, at any depth, holds a discriminant for which the union's own name_by_value names that variant. Without use-union no type holds a discriminant, so every value that is encoded comes back; without default arms under use-indexer and with at most 2^31 variants per enum every value is encoded and comes back. Two values whose discriminants agree and that have the same encoding are equal. (Lengths are below 2^32.) With use-union a value built with the discriminant of another case can come back as that other case.", "quantifier": "every interface text, all flags, every generated type and every value of it, of any size and depth", "why_tests_cant": "a round trip test takes single values of single interfaces; the claim is about all values of all interfaces and says which ones are lost", "anchors": ["serde-xdr/src/ser.rs: to_bytes", "serde-xdr/src/de.rs: from_bytes", "serde-xdr-derive/src/lib.rs: xdr_indexer, xdr_union", "rpcgen/src/gen_code.rs: convert_enum_token, convert_union_token, convert_struct_token"]}
{"id": "C92", "title": "What generated encoders write is of the interface", "statement": "In a program generated from a supported interface whose type names are defined (and whose default arms, if translated without flags, hold no opaque data and come after labels below 2^31 - 1), the bytes written for a value of a generated enum, structure or union are the RFC 4506 encoding of some value of the XDR type, up to maximum lengths and the numbers the flags let through; with use-union this needs the discriminants inside to agree with their variants. If the file leaves no such leeway, it is a value of the XDR type itself, and with use-union, or if there are no default arms, the encodings written for such values are exactly the encodings of the values of the XDR type.", "quantifier": "every interface text, all flags, every enum, structure and union in it and every value of its Rust type, of any size and nesting", "why_tests_cant": "Tests encode a few values of a few types; that no value of any generated type produces bytes that a conforming peer does not recognise ranges over all interfaces and all values, recursive ones included.", "anchors": ["serde-xdr/src/ser.rs: to_bytes", "rpcgen/src/gen_code.rs: gen_code, convert_enum_token, convert_struct_token, convert_union_token", "serde-xdr-derive/src/lib.rs: xdr_indexer, xdr_union", "rpcgen/src/main.rs: main"]}
{"id": "C93", "title": "What one generated program writes, another reads", "statement": "Take two programs generated from an interface, or from an interface and a later version of it, each with its own flags, both interfaces supported; the earlier one has its type names defined and leaves no leeway to its flags (no gaps in the numbers of enums and unions where the flags number by position); default arms are absent, or both programs are generated with use-union. Then whatever the first program writes for a value of a generated enum, structure or union whose discriminants agree with their variants, the second reads without error, as a value that it writes as the same bytes; and the first has its own value back from them. Maximum lengths need no condition.", "quantifier": "every pair of interface texts of which the second is a later version of the first, all pairs of flags, every enum, structure and union of the first and every value of its Rust type, of any size and nesting", "why_tests_cant": "The claim is about pairs of programs: every setting of the flags against every other, over all interfaces and all values a program can build in memory, not only those a test author thought of.", "anchors": ["rpcgen/src/gen_code.rs: gen_code, convert_enum_token, convert_struct_token, convert_union_token", "rpcgen/src/main.rs: main", "serde-xdr/src/ser.rs: to_bytes", "serde-xdr/src/de.rs: from_bytes", "serde-xdr-derive/src/lib.rs: xdr_indexer, xdr_union"]}
{"id": "C94", "title": "The work of generated decoders is linear in the input", "statement": "Take any interface and flags whose printed program compiles, in which no structure has itself, or a fixed-length array of itself, as a member, and no array or opaque data is of fixed length 0. Then decoding any of its types calls a number of Deserialize impls, and copies a number of words of opaque data, that together are at most proportional to the length of the input, whatever the input and whether or not it is accepted. Without the second condition a list of empty arrays is as much work as its count says, without any bytes following; without the first the work has no bound.", "quantifier": "every interface text, all flags, every type of the program, every input, every recursion bound", "why_tests_cant": "interfaces, nesting and inputs are unbounded, and the bound is about the worst input", "anchors": ["serde-xdr/src/de.rs: from_bytes, deserialize_struct, deserialize_seq, deserialize_option, Seq::next_element_seed", "serde-xdr/src/opaque.rs: enumerate_u8", "rpcgen/src/gen_code.rs: convert_struct_token, convert_union_token, convert_type_token"]}
{"id": "C95", "title": "Generated decoders request memory in proportion to the input", "statement": "Take any interface and flags whose printed program compiles, in which no structure has itself, or a fixed-length array of itself, as a member, and no array or opaque data is of fixed length 0. Then the memory that decoding any of its types requests before the data is there is at most proportional to the length of the input if the input is accepted. If it is not accepted, the length given for one opaque datum may come on top of that, which can be anything below 2^32, whatever maximum length the interface gives. It does not come on top if opaque data in the interface have fixed lengths and are neither arms of unions, other than default arms, nor typedefs.", "quantifier": "every interface text, all flags, every type of the program, every input, every recursion bound, every assignment of sizes to element types", "why_tests_cant": "interfaces, nesting and inputs are unbounded, and the bound is about the worst input", "anchors": ["serde-xdr/src/de.rs: from_bytes, deserialize_seq, Seq::size_hint", "serde-xdr/src/opaque.rs: enumerate_u8", "rpcgen/src/gen_code.rs: convert_struct_token, convert_union_token, convert_type_token"]}
{"id": "C96", "title": "Decoders of interfaces without recursion have bounded stacks", "statement": "Take any interface in which no type contains itself, not even as optional data, in an array or in an arm of a union, and any flags whose printed program defines its types. Then for each of its types there is a recursion depth that decoding does not exceed, whatever the input and its length, and a deeper stack does not change the outcome. With a type that contains itself there is no such depth: a list of n nodes of 4 bytes each takes more than n nested calls, though the caller can neither see that from the length it was sent nor limit it.", "quantifier": "every interface text, all flags, every type of the program, every input of any length", "why_tests_cant": "interfaces and inputs are unbounded, and the bound is about the worst input; a stack that overflows aborts the process instead of returning an error", "anchors": ["serde-xdr/src/de.rs: from_bytes, deserialize_struct, deserialize_option, deserialize_seq, deserialize_enum", "rpcgen/src/gen_code.rs: gen_code, convert_struct_token, convert_union_token, convert_type_token"]}
{"id": "C97", "title": "The sizes of messages follow from the interface", "statement": "Take an interface in the supported fragment (C53) and a type of it. By the tables of RFC 4506 its values take at least lo bytes and, unless it contains data of variable length or itself, at most hi: 4 for words and enums, 8 for hypers and doubles, sums for structures, products for arrays of fixed length, opaque data rounded up to words, at least 4 for data of variable length, 4 and possibly the value for optional data, 4 and an arm for unions. Then the generated decoder, with any flags, accepts no input shorter than lo or longer than hi, and the generated encoder writes no message outside these limits; if lo and hi are the same, every message of the type has that size. Without flags for unions, numbers between the labels count as arms without content.", "quantifier": "every interface text in the fragment, all flags, every enum, structure and union of it, every input, every value of the generated type", "why_tests_cant": "the limits are about all inputs and all values, and about every interface, not about sample messages", "anchors": ["rpcgen/src/gen_code.rs: convert_struct_token, convert_union_token, convert_type_token", "serde-xdr/src/de.rs: from_bytes", "serde-xdr/src/ser.rs: to_bytes", "serde-xdr/src/opaque.rs: fixed"]}
{"id": "C98", "title": "The sizes of messages follow from the Rust types", "statement": "Take a type that serde-xdr serialises, written by hand or generated. By the rules of RFC 4506 its values take at least lo bytes and, unless it contains data of variable length or itself, at most hi: 4 for everything of 32 bits or less, 8 for 64 bits, sums for tuples and structures, products for arrays, opaque data rounded up to words, 4 and possibly the value for options, a word and the members of a variant for enums and indexers, the discriminant and the other members for unions. Then from_bytes accepts no input shorter than lo or longer than hi, a reader at the front of a longer input takes between lo and hi bytes, and to_bytes writes no message outside these limits. If lo and hi are the same number k, all messages of the type have k bytes, and an accepted message for a Vec of that type with n elements has 4 + n * k bytes.", "quantifier": "every environment of user types, every type, every input, every value that fits its type, every user-written conversion", "why_tests_cant": "the limits are about all inputs and all values of all types, not about sample messages", "anchors": ["serde-xdr/src/de.rs: from_bytes", "serde-xdr/src/ser.rs: to_bytes", "serde-xdr/src/opaque.rs: fixed, variable", "serde-xdr-derive/src/lib.rs: XdrIndexer, XdrUnion"]}
{"id": "C99", "title": "Members after members of one size are at fixed offsets", "statement": "If the fields of a structure, or the members of a tuple, before a certain one all take a fixed number of bytes, k together (C98), then in every message from_bytes accepts, reading that field's type k bytes into the message gives the value the field has in the decoded whole. Element i of an array whose elements take k bytes each is read in the same way i * k bytes into the message, and of a Vec 4 + i * k bytes into it. The discriminant of a union is read at the front of its messages, and the variant is the one the user's code names for it; the word at the front of an enum is the position of its variant. So a header field or an element can be looked up without decoding what comes before it.", "quantifier": "every environment of user types, every structure, tuple, array and Vec with members of one size in front, every enum and union, every accepted input, every position", "why_tests_cant": "the offsets must hold in all accepted inputs of all types, including those with unusual padding or flags", "anchors": ["serde-xdr/src/de.rs: from_bytes, deserialize_struct, deserialize_tuple, deserialize_seq"]}
{"id": "C100", "title": "Programs whose types have one layout understand each other", "statement": "Names of types, fields and (of plain enums) variants, and whether members are those of a structure, a tuple structure, a newtype, a tuple or an array, have no influence on the bytes. Let two programs have types made alike in this sense: of one kind, and what they are made of alike again, also where types contain themselves; variants of derived indexers and unions have the same names and the same user code. Then from_bytes accepts the same inputs for both and reads the same members from them, readers at the front of an input take the same bytes, what one program writes the other reads as it was, and both write the same bytes for a value of both types, or fail in the same way. A value of the one type is a value of the other, if fields read as numbers (signed32) belong to enums with the same positions.", "quantifier": "every two programs, every relation between their types that relates only types of one kind whose parts are related, every input, every value that fits", "why_tests_cant": "it is about all pairs of programs, recursive ones included, and all inputs, not only those one of them writes", "anchors": ["serde-xdr/src/de.rs: from_bytes, deserialize_struct, deserialize_tuple, deserialize_tuple_struct, deserialize_newtype_struct, deserialize_enum", "serde-xdr/src/ser.rs: to_bytes", "serde-xdr/src/opaque.rs: variable"]}
