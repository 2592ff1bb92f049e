{"id": "C01", "title": "Variable-width integers round-trip in Rust", "statement": "For every unsigned 64-bit value v and any bytes that follow it, decoding the variable-width encoding of v yields exactly v and leaves exactly the bytes that followed.", "quantifier": "all v in [0,2^64) and all byte suffixes", "why_tests_cant": "2^64 values times unboundedly many suffixes; the nine ranges have 16 off-by-one boundaries", "anchors": ["src/generate_rust.rs: serialize_varint, deserialize_varint"]}
{"id": "C02", "title": "Variable-width integers use the documented layout and length", "statement": "The encoding of n has exactly the number of bytes the README's nine ranges give, equals what the size function reports, equals what the first byte's trailing zeros announce, and carries n minus the range's base in little-endian order after the unary length marker.", "quantifier": "all v in [0,2^64)", "why_tests_cant": "all 2^64 values", "anchors": ["src/generate_rust.rs: varint_size_from_value, varint_size_from_first_byte, serialize_varint", "README.md: Variable-width integers"]}
{"id": "C03", "title": "Variable-width integers are self-delimiting and (up to 8 bytes) canonical", "statement": "No encoding is a proper prefix of another; distinct values have distinct encodings; every byte string of at most 8 bytes that decodes completely is the encoding of the value it decodes to. Nine-byte strings are not canonical: some wrap around.", "quantifier": "all values and all byte strings", "why_tests_cant": "ranges over pairs of values and all byte strings", "anchors": ["src/generate_rust.rs: serialize_varint, deserialize_varint"]}
{"id": "C04", "title": "ZigZag is a bijection that keeps small magnitudes small", "statement": "ZigZag decoding inverts encoding and vice versa on all 64-bit integers, and the encoding of n is 2n for n>=0 and -2n-1 for n<0.", "quantifier": "all signed and all unsigned 64-bit integers", "why_tests_cant": "2^64 values", "anchors": ["src/generate_rust.rs: zigzag_encode, zigzag_decode", "README.md: Signed variable-width integers"]}
{"id": "C05", "title": "Field headers round-trip", "statement": "For each field index up to 2^62-1, payload size and integer-encoding flag, reading a header followed by its payload yields the same index and the payload's size and leaves exactly the payload; the header-size function is exact; the header of a Unit, F64, U64, S64 or Bool field with index below 32 is one byte; the maximum index is tight (2^62 would collide with 0).", "quantifier": "all indices, payloads, flags", "why_tests_cant": "three independent unbounded/2^62-sized parameters", "anchors": ["src/generate_rust.rs: field_header_size, serialize_field_header, deserialize_field_header", "src/validator.rs: MAX_FIELD_INDEX"]}
{"id": "C06", "title": "Every message round-trips through the generated Rust code", "statement": "For every well-formed user-defined type and each writer-side message of it (fitting in memory), serialising and then deserialising with the same type succeeds and gives the reader-side view of exactly that message (every field, element, nested message, and exposed fallback).", "quantifier": "all valid types (any nesting) and all messages", "why_tests_cant": "unboundedly many schemas and messages", "anchors": ["src/generate_rust.rs: write_serialization_invocation, write_deserialization_invocation, write_module_contents"]}
{"id": "C07", "title": "size() is exact and serialisation with one's own atlas never panics", "statement": "For each message, size() equals the number of bytes serialize() writes, and the panic arm for mismatched atlases is never reached.", "quantifier": "all types and messages", "why_tests_cant": "unboundedly many messages; two separately generated code paths must agree", "anchors": ["src/generate_rust.rs: write_atlas_calculation, write_atlas_lookup, write_size_function, write_serialize_function"]}
{"id": "C08", "title": "Serialisation loses no information and has no default values", "statement": "Two messages with the same bytes have the same reader-side view; in particular a present zero/empty/false value and an absent optional value never have the same encoding.", "quantifier": "all pairs of messages of a type", "why_tests_cant": "pairs of messages", "anchors": ["src/generate_rust.rs: write_serialization_invocation", "README.md: What about default values?"]}
{"id": "C09", "title": "Unrecognised struct fields are ignored", "statement": "Inserting any well-formed field with an index the reader does not know, at any field boundary of a serialised struct, does not change the result of deserialisation.", "quantifier": "all structs, messages, positions, unknown fields", "why_tests_cant": "all combinations of message, position and unknown field", "anchors": ["src/generate_rust.rs: skip, write_module_contents (struct deserialize_from_reader_ref)"]}
{"id": "C10", "title": "Field order on the wire does not matter for structs", "statement": "Reordering the serialised fields of a struct does not change what is deserialised; hence reordering declarations is compatible.", "quantifier": "all permutations of all messages' fields", "why_tests_cant": "factorially many orders of unboundedly many messages", "anchors": ["src/generate_rust.rs: struct deserialize_from_reader_ref"]}
{"id": "C11", "title": "A struct lacking a required field never deserialises", "statement": "If the input of a struct deserialiser contains no field with the index of some required field, deserialisation does not succeed; if it consists of well-formed fields, it fails with InvalidData.", "quantifier": "all structs and all inputs", "why_tests_cant": "all inputs", "anchors": ["src/generate_rust.rs: [tag:required_fields_present]"]}
{"id": "C12", "title": "Deserialisation of arbitrary bytes terminates", "statement": "For every input, the generated Rust deserialiser terminates. (False as stated: a truncated unrecognised field makes it spin forever. Proved: the witness, and termination whenever the reader does not meet a truncated unknown field.)", "quantifier": "all types and all byte strings", "why_tests_cant": "all byte strings; non-termination cannot be observed by a test", "anchors": ["src/generate_rust.rs: skip, finish, deserialize_from_reader_ref"]}
{"id": "C13", "title": "Deserialisation of arbitrary bytes never panics", "statement": "For every input, the generated Rust deserialiser does not panic or abort on allocation. (False as stated: the claimed payload size is reserved before reading. Proved: the witness, and absence of panics when every claimed size is within the allocation limit.)", "quantifier": "all types and byte strings", "why_tests_cant": "all byte strings", "anchors": ["src/generate_rust.rs: write_deserialization_invocation reserve_exact"]}
{"id": "C14", "title": "A choice reader uses the first field of the chain it recognises", "statement": "Deserialising a serialised choice chain with any compatible reader type yields the first field in the chain whose index the reader knows; for optional fields the rest of the chain is the exposed fallback.", "quantifier": "all chains, all reader types", "why_tests_cant": "chains of any length against all reader types", "anchors": ["src/generate_rust.rs: choice deserialize_from_reader_ref", "README.md: Choices"]}
{"id": "C15", "title": "A choice with no recognised field never deserialises", "statement": "If the input has no field recognised by the choice reader, or ends in optional fields only, deserialisation does not succeed.", "quantifier": "all choices and inputs of well-formed fields", "why_tests_cant": "all inputs", "anchors": ["src/generate_rust.rs: choice deserialize_from_reader_ref"]}
{"id": "C16", "title": "Compatible readers can read every message of the writer", "statement": "If reader type and writer type satisfy the documented direction-wise conditions (recursively), then each message of the writer deserialises successfully with the reader, all shared fields carry the written values, fields not written are absent.", "quantifier": "all pairs of related types, all messages", "why_tests_cant": "all pairs of schemas and messages", "anchors": ["src/generate_rust.rs: whole generated code", "README.md: Summary of what kinds of schema changes are safe"]}
{"id": "C17", "title": "Each documented safe schema change is safe in both directions", "statement": "Renaming and reordering fields, adding/removing optional and asymmetric fields, converting asymmetric to/from optional/required, and struct with one required field to/from choice: old writers can be read by new readers and new writers by old readers, at any nesting depth.", "quantifier": "all types, all single changes, all messages", "why_tests_cant": "all schema pairs", "anchors": ["README.md: Summary of what kinds of schema changes are safe"]}
{"id": "C18", "title": "The compatibility relation is reflexive and symmetric but not transitive", "statement": "The relation generated by the single-change rules is reflexive and symmetric, and there are two safe changes whose composite is unsafe.", "quantifier": "all types", "why_tests_cant": "universal over types", "anchors": ["README.md: Summary"]}
{"id": "C19", "title": "The documented unsafe changes really are unsafe", "statement": "Adding a required field to a struct makes every old message unreadable; dropping a required choice field makes every message ending with that field unreadable; optional to required in a struct makes messages without it unreadable; making a required choice field optional makes messages with it unreadable.", "quantifier": "all types and messages meeting the description", "why_tests_cant": "all types and messages", "anchors": ["README.md: Required fields are tricky; Choices"]}
{"id": "C20", "title": "Any user-defined type can be migrated to any other by safe changes", "statement": "For any two well-formed user-defined types there is a finite sequence of single safe changes from one to the other.", "quantifier": "all pairs of types", "why_tests_cant": "existence of a path for all pairs", "anchors": ["README.md: Summary"]}
{"id": "C21", "title": "Scalar encodings have the documented sizes", "statement": "U64/S64 field payloads take 0-8 bytes, elements 1-9; F64 fields 0 or 8; Bool 0 or 1; zero is empty; values >= 567382630219904 take 8 bytes; a simple enum with index below 32 takes one byte in total.", "quantifier": "all scalar values", "why_tests_cant": "2^64 values", "anchors": ["src/generate_rust.rs: write_u64_serialization_invocation", "README.md: Built-in types"]}
{"id": "C22", "title": "Converting an outgoing message to an incoming one in memory agrees with sending it", "statement": "The generated From<Out> for In conversion of a message equals the result of serialising then deserialising it.", "quantifier": "all types and messages", "why_tests_cant": "all messages", "anchors": ["src/generate_rust.rs: write_into_invocation, From impls"]}
{"id": "C23", "title": "Memory used by a deserialised message is bounded by a schema-dependent multiple of the input size, except for [Unit]", "statement": "The in-memory size of a successfully deserialised value (not counting units) is at most a constant depending only on the type times (input length + 1).", "quantifier": "all types and inputs", "why_tests_cant": "all inputs", "anchors": ["README.md: Security"]}
{"id": "C24", "title": "TypeScript and Rust serialise a message to the same bytes", "statement": "For each type and each message, the TypeScript encoder produces exactly the bytes the Rust encoder produces.", "quantifier": "all types and messages", "why_tests_cant": "all messages across two code bases", "anchors": ["src/generate_typescript.rs: write_serialization_invocation, write_atlas_calculation", "src/generate_rust.rs"]}
{"id": "C25", "title": "Messages written by either language are read identically by the other", "statement": "The TypeScript deserialiser applied to bytes serialised by Rust (or TypeScript) yields the reader-side view of the message, as the Rust one does (strings compared as code point sequences, excluding those that begin with a byte order mark).", "quantifier": "all types and messages", "why_tests_cant": "all messages", "anchors": ["src/generate_typescript.rs: write_deserialization_invocation"]}
{"id": "C26", "title": "Rust and TypeScript readers agree on every input", "statement": "Both decoders give the same outcome on each input. (False: duplicate fields, truncated payloads, truncated unknown fields; witnesses proved.)", "quantifier": "all byte strings", "why_tests_cant": "all inputs", "anchors": ["src/generate_typescript.rs", "src/generate_rust.rs"]}
{"id": "C27", "title": "The TypeScript deserialiser never reads outside the view it is given", "statement": "(False: payload views are bounds-checked against the underlying buffer only; witness proved. For inputs in which every field lies within its parent the reads stay inside.)", "quantifier": "all buffers and views", "why_tests_cant": "all inputs", "anchors": ["src/generate_typescript.rs: write_deserialization_invocation, new DataView"]}
{"id": "C28", "title": "The validator accepts exactly the well-formed schemas", "statement": "Validation succeeds iff: declaration names are unique per file; field names and indices unique per declaration; indices within the bound; used and deleted indices are disjoint and together are exactly 0..n-1; each named type exists in the named import or file; no type contains itself, directly or via arrays.", "quantifier": "all sets of loaded schemas", "why_tests_cant": "all schemas", "anchors": ["src/validator.rs: validate, validate_type, check_declaration_for_cycles"]}
{"id": "C29", "title": "Cycle detection is sound and complete and terminates", "statement": "For schemas otherwise valid, a cycle error is reported iff the contains-relation on declarations has a cycle, and the check terminates.", "quantifier": "all finite type graphs", "why_tests_cant": "all graphs; termination", "anchors": ["src/validator.rs: check_declaration_for_cycles, check_type_for_cycles"]}
{"id": "C30", "title": "Each type of a validated schema denotes a finite well-formed wire type", "statement": "For each declaration of a schema set accepted by the validator, unfolding references terminates and gives a type with distinct in-range indices, so the codec theorems apply to all code Typical generates.", "quantifier": "all accepted schemas", "why_tests_cant": "all schemas", "anchors": ["src/validator.rs", "src/generate_rust.rs: write_type"]}
{"id": "C31", "title": "Names do not affect the wire format", "statement": "Two schemas that differ only in the names of fields, types, imports or comments unfold to the same wire types.", "quantifier": "all schemas and injective renamings", "why_tests_cant": "all schemas and renamings", "anchors": ["README.md: Fields", "src/generate_rust.rs"]}
{"id": "C32", "title": "Sparse indices need deleted markers", "statement": "(README: indices need not be consecutive; largest possible index 2^62-1.) The validator accepts a declaration's indices iff used and deleted indices are exactly an initial segment, so any accepted index is smaller than the number of used plus deleted indices.", "quantifier": "all declarations", "why_tests_cant": "all index sets", "anchors": ["src/validator.rs: validate", "README.md: Fields"]}
{"id": "C33", "title": "Tokens tile the source", "statement": "On success every token's source range is nonempty, in bounds, ranges are strictly increasing and disjoint, and all characters outside them are whitespace; on failure at least one error is reported and each names an in-bounds range.", "quantifier": "all source strings", "why_tests_cant": "all strings", "anchors": ["src/tokenizer.rs: tokenize"]}
{"id": "C34", "title": "Tokenising inverts printing of tokens", "statement": "Tokenising the space-separated printed forms of any sequence of keywords, symbols, integers, identifiers and paths gives back that sequence.", "quantifier": "all token sequences", "why_tests_cant": "all sequences", "anchors": ["src/tokenizer.rs: tokenize", "src/token.rs"]}
{"id": "C35", "title": "The parser never panics", "statement": "For each token sequence, parsing returns a schema or errors. (False: a comment at the end of the file after an import or declaration makes it index out of bounds; witness proved. Proved for the rest.)", "quantifier": "all token sequences", "why_tests_cant": "all sequences", "anchors": ["src/parser.rs: parse, parse_schema"]}
{"id": "C36", "title": "Formatting preserves meaning", "statement": "For every source which parses, the formatted text of its schema parses again, to the same schema up to source ranges, the case style of names, and re-filled comment paragraphs; and with unchanged comments if the filler only breaks lines at spaces. Exceptions, which are proved to be real: names which become reserved words (`$struct`, a type `string`) and type names with a word beginning with a digit (`f_1`).", "quantifier": "all source texts, Unicode tables and comment fillers", "why_tests_cant": "all source texts", "anchors": ["src/schema.rs: Display", "src/main.rs: format_schema", "src/parser.rs: parse", "src/tokenizer.rs: tokenize"]}
{"id": "C37", "title": "Formatting is idempotent", "statement": "For every source which parses and whose names do not become reserved words, the formatted text parses, and formatting it again gives the same text, provided that filling a filled comment does not change it.", "quantifier": "all source texts, Unicode tables and comment fillers", "why_tests_cant": "all source texts", "anchors": ["src/schema.rs: Display", "src/main.rs: format_schema", "src/parser.rs: parse", "src/tokenizer.rs: tokenize"]}
{"id": "C38", "title": "Identifier identity is case-convention independent", "statement": "Two identifiers are equal iff they have the same words; converting to snake, camel or Pascal case and reading back gives an equal identifier when no word begins with a digit. (Without that condition false: foo_1 and foo1 are different fields with the same generated Pascal/camel name; witness proved.)", "quantifier": "all identifiers", "why_tests_cant": "all strings", "anchors": ["src/identifier.rs"]}
{"id": "C39", "title": "Relative namespaces resolve to the intended module", "statement": "The relative path printed for a type reference (number of supers plus components) resolves from the referencing module to the referenced namespace, and uses the fewest supers.", "quantifier": "all pairs of namespaces", "why_tests_cant": "all pairs", "anchors": ["src/schema.rs: relativize_namespace", "src/generate_rust.rs: write_type, write_supers"]}
{"id": "C40", "title": "Loading gives exactly the transitive imports", "statement": "On success the loaded schemas are exactly those reachable by imports from the root, each import is annotated with the namespace of the file it denotes, and loading terminates even for cyclic imports.", "quantifier": "all file systems", "why_tests_cant": "all import graphs", "anchors": ["src/schema_loader.rs: load_schemas"]}
{"id": "C41", "title": "Distinct files with the same namespace are rejected", "statement": "(False: the conflict check is unreachable, so one of the files is silently dropped; witness proved.)", "quantifier": "all file systems", "why_tests_cant": "all import graphs", "anchors": ["src/schema_loader.rs: load_schemas"]}
{"id": "C42", "title": "format --check never writes and fails iff some file would change", "statement": "With --check, no file is written, and the command succeeds iff all files load and equal their formatted text; without it exactly the differing files are written, and after a successful run --check succeeds and another run writes nothing (under the conditions of C37).", "quantifier": "all file contents", "why_tests_cant": "all inputs", "anchors": ["src/main.rs: format_schema"]}
{"id": "C43", "title": "Every declared type is generated exactly once in its module", "statement": "In the module tree built from the loaded schemas, looking up a namespace gives exactly the schema loaded under it.", "quantifier": "all schema sets", "why_tests_cant": "all sets", "anchors": ["src/generate_rust.rs: insert_schema, write_module"]}
{"id": "C44", "title": "The code generator writes no output if loading or validation fails", "statement": "For all inputs, output files are written only after all schemas loaded and validated.", "quantifier": "all inputs and failures", "why_tests_cant": "all failure points", "anchors": ["src/main.rs: generate_code"]}
{"id": "C45", "title": "Serialised bytes follow the documented binary format", "statement": "The bytes of a message are those the README's 'Binary encoding' section prescribes: each struct is the concatenation of its present fields in declaration order, each field a header with index and size mode and its payload, each choice its field followed by the fallback's fields, arrays with or without element sizes.", "quantifier": "all types and messages", "why_tests_cant": "all messages", "anchors": ["README.md: Binary encoding", "src/generate_rust.rs: write_serialization_invocation"]}
{"id": "C46", "title": "The TypeScript deserialiser terminates on every input", "statement": "For every type and every view of every buffer, deserialising ends: with a value, a RangeError or the error for missing fields.", "quantifier": "all types, all buffers and views", "why_tests_cant": "all inputs", "anchors": ["src/generate_typescript.rs: deserializeUnsafe loops"]}
{"id": "C47", "title": "References in generated TypeScript resolve to the intended type", "statement": "Each reference to a type in the generated TypeScript resolves, by TypeScript's scoping rules, to the type the schema refers to. (False: absolute dotted paths are shadowed by inner namespaces, e.g. for a file x/x.t or a type named like its file; witnesses proved. Proved: the exact condition under which a reference resolves correctly.)", "quantifier": "all schema sets, all references", "why_tests_cant": "all namespaces and references", "anchors": ["src/generate_typescript.rs: write_custom_type, write_module"]}
{"id": "C48", "title": "The parser accepts exactly the documented grammar, unambiguously", "statement": "A sequence of tokens parses to a schema iff it is that schema by the grammar (comment, imports, declarations, fields, deleted indices, types); no sequence is two schemas; on other sequences at least one error is reported (or C35's panic).", "quantifier": "all token sequences and schemas", "why_tests_cant": "all sequences", "anchors": ["src/parser.rs: parse, parse_schema, parse_import, parse_field, parse_type"]}
{"id": "C49", "title": "Error listings point at the right lines and never panic", "statement": "For every source range which the tokenizer, the parser or a parsed schema yields, rendering the listing returns; it shows exactly the lines the range touches, once each, in order, with their numbers, and highlights exactly the characters in the range (without white space at the beginning of continued lines and at line ends). Without colours the marks are below those characters in ASCII lines. (An arbitrary range can make the renderer panic, an empty range at the beginning of a line shows nothing, and non-ASCII text shifts the marks; witnesses proved.)", "quantifier": "all source texts, all errors and schemas", "why_tests_cant": "all source texts and ranges", "anchors": ["src/error.rs: listing", "src/tokenizer.rs: tokenize", "src/parser.rs: parse, span_tokens"]}
{"id": "C50", "title": "Merging errors loses none of them", "statement": "The text of a merged error consists of the texts of all its errors, in order, without white space at their ends and with only white space between them.", "quantifier": "all lists of errors", "why_tests_cant": "all lists", "anchors": ["src/error_merger.rs: merge_errors"]}
{"id": "C51", "title": "TypeScript serialises a choice with the field the message was built with", "statement": "The object for a field of a choice is recognised as that field by the generated serialiser. (False: a field before it named like a property of Object.prototype, e.g. to_string or value_of, or with the same camel-case name, is taken instead; witness proved. Proved: the exact condition, and that names accepted by the validator suffice otherwise.)", "quantifier": "all choices, all fields", "why_tests_cant": "all schemas", "anchors": ["src/generate_typescript.rs: atlas and serializeWithAtlasUnsafe of choices, write_choice"]}
{"id": "C52", "title": "All names in generated code are legal identifiers", "statement": "Every identifier which the generators write for a plain ASCII name in a schema is an identifier of the target language. (False for Rust: the local variable for a struct field named like a keyword is _r#type; self, super, crate cannot be raw identifiers; witnesses proved. Proved: the exact conditions for Rust; without conditions for Rust type names and for TypeScript.)", "quantifier": "all names", "why_tests_cant": "all names", "anchors": ["src/generate_rust.rs: write_identifier, RUST_KEYWORDS", "src/generate_typescript.rs: write_identifier, TYPESCRIPT_KEYWORDS"]}
{"id": "C53", "title": "Built-in objects used by generated TypeScript are not shadowed", "statement": "A use of Error, DataView, ArrayBuffer etc. in the generated code refers to the global object. (False: a type or file named error shadows Error in its namespace; witness proved. Proved for all schema sets without such names.)", "quantifier": "all schema sets", "why_tests_cant": "all schema sets", "anchors": ["src/generate_typescript.rs: write_schema, write_module"]}
{"id": "C54", "title": "The result does not depend on how the reader delivers the bytes", "statement": "For every reader which does not fail, whatever the sizes of its buffers and reads, deserialising gives the same result as from the whole byte string, and a successful call has consumed the reader to its end.", "quantifier": "all types, all byte strings, all schedules of deliveries", "why_tests_cant": "all schedules", "anchors": ["src/generate_rust.rs: deserialize_varint, deserialize_field_header, skip, finish, deserialize_from_reader_ref"]}
{"id": "C55", "title": "An error of the reader is never mistaken for the end of the message", "statement": "If the reader fails, deserialisation fails, with the reader's error or with an error which the bytes delivered until then imply; interruptions are retried. (False: a reader's error of kind UnexpectedEof ends a struct or array as if it were complete; an interruption while a field is skipped or its size is peeked at is passed on. Witnesses proved. Proved for all other kinds of errors.)", "quantifier": "all types, all readers, all points of failure", "why_tests_cant": "all points of failure", "anchors": ["src/generate_rust.rs: deserialize_field_header, skip, finish, deserialize_from_reader_ref"]}
{"id": "C56", "title": "Serialisation to any writer writes the message or reports the writer's error", "statement": "A successful serialisation has written exactly the message's bytes, in order, however little the writer accepts at a time; a failed one reports the writer's error and has written a proper prefix of them.", "quantifier": "all types, messages, and writers", "why_tests_cant": "all points of failure", "anchors": ["src/generate_rust.rs: serialize_varint, serialize_field_header, serialize_with_atlas"]}
{"id": "C57", "title": "Editing schema files by the documented rules keeps all message types compatible", "statement": "If corresponding declarations of two valid versions of a set of schema files are related by the documented rules (fields renamed, reordered, added or removed unless required, rules changed to or from asymmetric, single required field struct to/from choice, declarations and files renamed), then old and new version of every declaration, including all those which merely refer to changed ones, read each other's messages, in Rust and TypeScript.", "quantifier": "all valid schema sets, all sets of safe edits, all messages", "why_tests_cant": "all schema sets and edits", "anchors": ["README.md: lines 295-305", "src/validator.rs: validate", "src/generate_rust.rs: write_schema", "src/generate_typescript.rs: write_schema"]}
{"id": "C58", "title": "Whenever generation succeeds, the generated code round-trips all messages in both languages", "statement": "If the generate command succeeds on a file, each declaration in each file reachable by imports has one wire type, and each message of it is serialised to the same bytes by the generated Rust and TypeScript code and read back by both as what was written.", "quantifier": "all file systems, all schema files, all messages", "why_tests_cant": "all schemas and messages", "anchors": ["src/main.rs: generate_code", "src/schema_loader.rs: load_schemas", "src/validator.rs: validate", "src/generate_rust.rs: write_schema", "src/generate_typescript.rs: write_schema"]}
{"id": "C59", "title": "The validator reports every mistake, where it is", "statement": "If something other than a cycle is wrong with the loaded schemas, the errors are exactly the duplicate declarations, duplicate field names and indices, deleted or too large indices, index gaps, unknown imports and unknown types of all files, each with its file and the source range of the offending declaration, field or type; none is missing or spurious. Otherwise the errors are exactly cycles.", "quantifier": "all loaded schema sets", "why_tests_cant": "all schema sets", "anchors": ["src/validator.rs: validate, validate_type"]}
{"id": "C60", "title": "The loader reports exactly the problems of the files reachable by imports", "statement": "If loading fails, each reported error is a problem of a file reachable by imports (unreadable, not tokens, not a schema, an import which leads nowhere or outside of the base directory); and if no two reachable files have the same namespace, every such problem of every reachable file is reported, not only the first.", "quantifier": "all file systems and import graphs", "why_tests_cant": "all import graphs", "anchors": ["src/schema_loader.rs: load_schemas"]}
{"id": "C61", "title": "The conditions for safe changes are exact", "statement": "A schema change outside the documented rules is not merely undocumented: if the new reader type violates the condition at any depth (and every choice of the writer has a required field, so that messages exist), there is a message of the old type which the new reader rejects. If no struct becomes a choice or vice versa, two versions can read all of each other's messages exactly if they are related by the documented rules.", "quantifier": "all pairs of wire types whose shared fields have the same shape; all messages", "why_tests_cant": "A test shows that one particular change breaks one message; that every violation at any depth breaks some message needs a construction for all types.", "anchors": ["src/generate_rust.rs:struct and choice serialization and deserialization", "README.md:295-305"]}
{"id": "C62", "title": "The recursion depth of Rust deserialisation is bounded by the schema exactly if no choice has an optional field", "statement": "For every input, the number of nested calls of generated deserialisers is at most the nesting of declarations in the type plus the number of bytes of the input; without optional fields in choices it is at most the nesting of the type whatever the input is. With an optional field in any choice, at any depth, it is unbounded: messages written by the generated code itself need any number of nested calls, at one call per byte.", "quantifier": "all types, all inputs", "why_tests_cant": "The deepest recursion on any input cannot be observed by running some inputs.", "anchors": ["src/generate_rust.rs:deserialize_from_reader_ref (structs 804-957, choices 1285-1376)", "README.md:473-480"]}
{"id": "C63", "title": "A message which is cut off is read as what is left of it, and reading it ends if the reader knows its fields", "statement": "If a serialised message is cut off after any number of bytes (a crash of the writer, a lost connection), the Rust deserialiser gets exactly what a reader gets from the content which is left: complete fields, and the last one cut off (a shorter Bytes value, string, array or nested value); it returns that value, or UnexpectedEof or InvalidData if that content cannot be read. It never panics, and it always returns if it knows all fields of the message. (Truncation is not always detected: witness proved.)", "quantifier": "all types of writer and reader, all messages, all cut points", "why_tests_cant": "The cut can be at any byte of any message of any type; tests try some.", "anchors": ["src/generate_rust.rs:deserialize_from_reader_ref (structs 804-957, choices 1285-1376)", "src/generate_rust.rs:write_deserialization_invocation"]}
{"id": "C64", "title": "Names of the standard library in the generated Rust refer to the standard library, whatever files and types are called", "statement": "In the generated Rust file, the names imported at the top and the uses of std and of the prelude refer to the standard library, whatever the files, directories, types and fields of the schemas are called. (False: a file or directory io or std at the top, or a file main.t with a struct beside main/std.t, breaks the generated code; these are the only cases.)", "quantifier": "all sets of loaded schema files with ASCII names", "why_tests_cant": "all names of files and types", "anchors": ["src/generate_rust.rs: generate, write_schema, write_module, write_deserialization_invocation"]}
{"id": "C65", "title": "No scope of the generated code contains two definitions with the same name", "statement": "Modules, types, fields and variants in the same scope of the generated Rust, and types in the same namespace and properties of the same type of the generated TypeScript, have different names, if the validator accepts the schemas. (False exactly for names which differ only in underscores before digits, such as v1 and v_1.)", "quantifier": "all sets of schemas which the validator accepts, with ASCII names", "why_tests_cant": "all names", "anchors": ["src/generate_rust.rs: write_module_contents, write_struct, write_choice, write_identifier", "src/generate_typescript.rs: write_module_contents, write_struct, write_choice, write_identifier", "src/identifier.rs: pascal_case, camel_case"]}
{"id": "C66", "title": "In TypeScript a message which is cut off is read as its complete leading fields or rejected, never with a part of a value", "statement": "If a serialised message is cut off after any number of bytes, a TypeScript reader of a compatible type gets exactly what it gets from the complete fields before the cut, or an exception: a RangeError exactly if the cut is in the value of a field it knows (for choices: if the complete fields give no value), the missing-field error if a required field is lost. It never gets a part of a value, and never loses a required field. (Losing optional fields is not detected: witness proved. In Rust, parts of values are accepted: C63.)", "quantifier": "all types of writer and reader, all messages, all cut points", "why_tests_cant": "The cut can be at any byte of any message of any type; tests try some.", "anchors": ["src/generate_typescript.rs: deserialize (structs 820-969, choices 1210-1318)", "src/generate_typescript.rs: deserializeFieldHeader (420-441)"]}
{"id": "C67", "title": "The generated Rust serialiser writes the documented bytes of every value of every declaration", "statement": "For every set of valid schemas whose names do not collide, every declaration and every value of its Out type whose documented layout has less than 2^64 bytes: executing the generated size method returns the number of bytes of that layout, changes nothing, and no sum in it overflows; executing the generated serialize method appends exactly the documented layout of the value's content and returns Ok(()). The statement is about the code which the generator prints for the declaration, executed statement by statement, not about a decoder written by hand.", "quantifier": "all valid sets of schemas (any number of files, declarations, fields; any nesting), all values", "why_tests_cant": "all schemas and values; tests run one schema with some values", "anchors": ["src/generate_rust.rs: write_schema (struct 517-974, choice 975-1408), write_atlas_calculation 1816-1913, write_atlas_lookup 1919-1944, write_serialization_invocation 1957-2110"]}
{"id": "C68", "title": "The generated Rust deserialiser decodes every byte string as the decoder of the wire type does", "statement": "For every set of valid schemas whose names do not collide, every declaration and every byte string: executing the generated deserialize function ends as the decoder for the declaration's wire type does - it returns Ok with a value of the In type which has the decoded content, having read everything; or the same error, panic or endless skip.", "quantifier": "all valid sets of schemas, all byte strings", "why_tests_cant": "all schemas and inputs", "anchors": ["src/generate_rust.rs: write_schema, write_deserialization_invocation 2124-2386"]}
{"id": "C69", "title": "The generated conversion and the generated round trip agree", "statement": "Executing the generated From conversion on a value of the Out type gives the value of the In type with the content that a reader is shown; executing serialize and then deserialize on its output gives the same value.", "quantifier": "all valid sets of schemas, all values within the memory limit", "why_tests_cant": "all schemas and values", "anchors": ["src/generate_rust.rs: From implementations (580-632, 1038-1099), write_into_invocation 1781-1807"]}
{"id": "C70", "title": "Whenever generate succeeds, the Rust file it writes contains code which round-trips every value", "statement": "If the generate command succeeds, it has written the Rust file; each function of the generated program is in its text; and (if names do not collide) for each declaration of each file reachable by imports, executing the generated serialize on any value and then the generated deserialize gives a value with the content that a reader is shown.", "quantifier": "all file systems, all schema files, all values", "why_tests_cant": "all inputs of the whole tool chain", "anchors": ["src/main.rs: generate_code", "src/generate_rust.rs: generate 104-404, write_module, write_schema"]}
{"id": "C71", "title": "Programs generated from two compatible versions of the schemas understand each other", "statement": "If the declarations of two versions of some schemas are related by the documented rules, whatever the program generated from one version writes is read without an error by the program generated from the other; what it gets is the written content restricted to what its version knows.", "quantifier": "all pairs of valid versions, all values", "why_tests_cant": "all schemas, edits and values", "anchors": ["README.md: lines 295-305", "src/generate_rust.rs: write_schema"]}
{"id": "C72", "title": "The generated TypeScript serialiser returns the documented bytes of every value of every declaration", "statement": "For every set of valid schemas whose names do not collide, every declaration and every JavaScript value of its Out type: executing the generated size function returns the number of bytes of the message; executing the generated serialize function returns a new ArrayBuffer which contains exactly the documented layout of the value's content. No existing array or buffer is changed. The statement is about the code which the generator prints, executed statement by statement, including the varint and header functions at the top of the file. Unless a field of a choice is named like a property which all objects inherit, every message of the wire type is the content of such a value.", "quantifier": "all valid sets of schemas (any number of files, declarations, fields; any nesting), all values and heaps", "why_tests_cant": "all schemas and values; tests run one schema with some values", "anchors": ["src/generate_typescript.rs: generate (runtime functions 172-446), write_schema (struct 581-973, choice 974-1318), write_atlas_calculation 1724-1938, write_atlas_lookup 1944-1973, write_serialization_invocation 1987-2198, write_size_function, write_serialize_function"]}
{"id": "C73", "title": "The generated TypeScript deserialiser always returns and never throws", "statement": "For every set of valid schemas whose names do not collide, every declaration and every ArrayBuffer, DataView or typed array with any bytes: executing the generated deserialize function returns; it does not throw. It returns a value of the In type with the content which the decoder of the wire type gives, made of new arrays and buffers, or a RangeError, or the error that a required field is missing, exactly as the decoder does. No existing array or buffer is changed.", "quantifier": "all valid sets of schemas, all inputs of the three kinds, at any offset in any buffer", "why_tests_cant": "all schemas and inputs", "anchors": ["src/generate_typescript.rs: write_deserialize_function 1516-1555, write_schema, write_deserialization_invocation 2215-2533, deserializeVarint, deserializeFieldHeader"]}
{"id": "C74", "title": "Programs generated for Rust and TypeScript from the same schemas exchange all messages", "statement": "Whatever the generated TypeScript serialize returns, the generated TypeScript deserialize and the generated Rust deserialize read; whatever the generated Rust serialize writes, the generated TypeScript deserialize reads; in each case the result is a value of the In type with the content which a reader is shown. (For TypeScript readers: unless a string begins with a byte order mark, see C25.)", "quantifier": "all valid sets of schemas, all values, both languages", "why_tests_cant": "all schemas and values", "anchors": ["src/generate_typescript.rs: write_schema", "src/generate_rust.rs: write_schema"]}
{"id": "C75", "title": "TypeScript programs generated from two compatible versions of the schemas understand each other", "statement": "If the declarations of two versions of some schemas are related by the documented rules, whatever the TypeScript program generated from one version writes is read without an error by the TypeScript program generated from the other; what it gets is the written content restricted to what its version knows.", "quantifier": "all pairs of valid versions, all values", "why_tests_cant": "all schemas, edits and values", "anchors": ["README.md: lines 295-305", "src/generate_typescript.rs: write_schema"]}
{"id": "C76", "title": "Whenever generate succeeds, the TypeScript file it writes contains code which round-trips every value", "statement": "If the generate command succeeds, it has written the TypeScript file; each function of the generated program is in its text, in the namespace of its declaration; and (if names do not collide) for each declaration of each file reachable by imports, executing the generated serialize on any value and then the generated deserialize gives a value with the content that a reader is shown.", "quantifier": "all file systems, all schema files, all values", "why_tests_cant": "all inputs of the whole tool chain", "anchors": ["src/main.rs: generate_code", "src/generate_typescript.rs: generate 124-467, write_module 509-536, write_schema 563-1327"]}
{"id": "C77", "title": "A stack overflow in generated TypeScript code never gives a wrong result", "statement": "However small the stack which is left: the generated size and serialize functions either end as they would with an unlimited stack or throw a RangeError; the generated deserialize function does not throw, and what it returns is what it would return with an unlimited stack, or an error.", "quantifier": "all valid sets of schemas, all values and inputs, all sizes of the stack and of stack frames", "why_tests_cant": "the size of the stack left is up to the caller and the engine; overflow can happen at every call", "anchors": ["src/generate_typescript.rs: write_schema (struct deserializeUnsafe 849-920, catch 865-876), write_deserialize_function 1516-1555"]}
{"id": "C78", "title": "The stack which the generated TypeScript deserialiser needs is bounded by the schema unless a choice has an optional field", "statement": "If no choice in the type of a declaration has an optional field, then a stack for (nesting of the type + 4) frames is enough for deserialize, for every input: it ends as with an unlimited stack. With an optional field in a choice no stack is enough: there is a message with as many bytes as the stack, valid and accepted on a larger stack, for which deserialize returns a RangeError.", "quantifier": "all valid sets of schemas, all inputs, all sizes of the stack and of stack frames", "why_tests_cant": "all inputs and stack sizes", "anchors": ["src/generate_typescript.rs: choice deserializeUnsafe 1208-1318 (fallback), write_deserialize_function 1516-1555"]}
{"id": "C79", "title": "An integer which does not fit its field is never changed silently by generated TypeScript code", "statement": "Whatever bigint is given for a field of type U64 or S64 (README: integers map to bigint), serialize throws, or deserialize of its result gives the same bigint.", "quantifier": "all integers", "why_tests_cant": "the type bigint has infinitely many values, and every one out of range is affected", "anchors": ["src/generate_typescript.rs: serializeVarint 233-316, zigzagEncode 176-179, write_u64_serialization 2171-2198, write_type 1558-1645 (bigint)", "README.md line 493"]}
{"id": "C80", "title": "The functions at the top of generated Rust code do what the format says, never panic and do not depend on overflow checks", "statement": "The eleven functions which every generated Rust file begins with, executed as printed: for all arguments of the right types and on all readers and writers they never panic (no overflow, index or slice out of bounds), behave the same with and without overflow checks (debug and release builds), write integers and field headers exactly as documented, read them back from a reader which gives the bytes in any pieces, and skip and finish consume exactly what they should.", "quantifier": "all arguments, readers, writers, word sizes from 16 bits, build modes", "why_tests_cant": "overflow depends on 64-bit arguments, and the pieces a reader gives are arbitrary", "anchors": ["src/generate_rust.rs: zigzag_encode 158-160, zigzag_decode 162-164, varint_size_from_value 166-178, varint_size_from_first_byte 180-182, serialize_varint 184-272, deserialize_varint 274-301, field_header_size 303-316, serialize_field_header 318-336, deserialize_field_header 338-362, skip 364-373, finish 375-386"]}
{"id": "C81", "title": "Generated Rust code reads the same bytes in the same way on targets of 32 and 64 bits", "statement": "The functions at the top of the generated Rust file give the same results and leave the same bytes unread on targets whose usize has 32 and 64 bits.", "quantifier": "all readers, writers, arguments and word sizes from 16 bits", "why_tests_cant": "tests run on one target, with small sizes", "anchors": ["src/generate_rust.rs: deserialize_field_header 338-362 (as usize), skip 364-373, field_header_size 303-316"]}
{"id": "C82", "title": "Programs in different languages, generated from different versions, read each other's messages", "statement": "If the declarations of two versions of some schemas are related by the documented rules, then whatever the Rust or TypeScript program generated from one version writes, the Rust and the TypeScript program generated from the other version read without an error, and they get the content which was written, restricted to what their version knows.", "quantifier": "all pairs of versions, schemas, values, readers and writers in both languages", "why_tests_cant": "quantifies over pairs of schemas, values and languages", "anchors": ["src/generate_rust.rs: write_schema 499-1411", "src/generate_typescript.rs: write_schema 563-1327", "README.md lines 295-305"]}
{"id": "C83", "title": "What generated programs get from a message which is cut off", "statement": "Let a message written by a generated Rust or TypeScript program be cut off anywhere. The Rust program of the same or a compatible version returns exactly the content which the remaining bytes show, or an error, or (only if it does not know a field of the message) does not return; it never panics. The TypeScript program always returns: the content of the leading complete fields, or an Error; never a part of a value.", "quantifier": "all schemas, versions, messages and positions of the cut", "why_tests_cant": "one case per message and position", "anchors": ["src/generate_rust.rs: write_schema 499-1411, skip 364-373", "src/generate_typescript.rs: struct deserialize 818-970, choice deserialize 1208-1318"]}
{"id": "C84", "title": "Generated Rust programs on real readers and writers", "statement": "The program which is generated from any accepted schemas, with the runtime functions at the top of the file executed as well, behaves as follows on any device. A reader which delivers some bytes in any pieces (with interruptions) makes deserialize return the same value or the same io::ErrorKind as the bytes at once would, and a message which is read with success is read to its end. A reader which fails makes deserialize return exactly that error, unless the bytes before it already decided on another error. serialize on any writer either writes all of the bytes of the message and returns Ok, or returns an error which the writer reported (or WriteZero if it accepted nothing) after writing a proper prefix. A message which was written with success to such a writer and delivered by such a reader is read back as it was written.", "quantifier": "all schemas, values, readers, writers, and schedules of short reads, short writes, interruptions and failures; with or without overflow checks, on 64-bit targets", "why_tests_cant": "quantifies over all devices and schedules", "anchors": ["src/generate_rust.rs: generate 137-386", "src/generate_rust.rs: write_schema 499-1411"]}
{"id": "C85", "title": "The declared Rust types are the messages", "statement": "The structs and enums which the generated Rust file declares for a declaration (printed with the names, members, variants and types that Rust resolves through the modules) have exactly the values which hold the content of a message: no value that Rust's type system permits is rejected by size or serialize, deserialize returns Ok only with values of the declared type, conversion takes values of the type for writing to values of the type for reading, and no message content is lacking a value.", "quantifier": "all accepted schemas, all declarations, all values", "why_tests_cant": "quantifies over all schemas and all values of all generated types", "anchors": ["src/generate_rust.rs: write_struct 1420-1481", "src/generate_rust.rs: write_choice 1484-1562", "src/generate_rust.rs: write_type 1608-1719"]}
{"id": "C86", "title": "Generated Rust functions type-check", "statement": "For every accepted schema, each struct and enum of the generated Rust has distinct member or variant names, only mentions types that exist, and has a finite size (it does not contain itself except behind a pointer), and the body of each generated function (from, atlas, serialize_with_atlas, deserialize_from_reader_ref, size, and the functions of the traits) has the type that its printed signature promises, by Rust's rules for expressions, places (mutability, no move out of a borrow), automatic dereferencing, coercions, patterns and exhaustiveness of match.", "quantifier": "all accepted schemas, all declarations, all generated functions", "why_tests_cant": "a test compiles the output for some schemas; whether the output compiles depends on the combination of rules, types and nesting of all schemas", "anchors": ["src/generate_rust.rs: write_schema 499-1416", "src/generate_rust.rs: write_into_invocation 1781-1807", "src/generate_rust.rs: write_atlas_calculation_invocation 1816-1913", "src/generate_rust.rs: write_serialization_invocation 1957-2075", "src/generate_rust.rs: write_deserialization_invocation 2124-2386"]}
{"id": "C87", "title": "Declared TypeScript types", "statement": "For every accepted schema (without collisions of names): the value which deserialize returns, if it is not an Error, is a value of the declared In type with no other properties; every value of the declared Out type which has no other properties, and whose bigints fit into the types of the schema, is a message, which size and serialize accept; and every message is a value of the declared Out type. Without the condition on other properties this fails: { a: '', b: '' } has the type { a: bigint } | { b: string } and is taken for an a.", "quantifier": "all accepted schemas, all declarations, all values of the declared types, all input bytes, all heaps", "why_tests_cant": "tests use some well-typed values; the claim is about every value that the type checker admits, and about every value that is returned", "anchors": ["src/generate_typescript.rs: write_struct 1330-1376", "src/generate_typescript.rs: write_choice 1379-1455", "src/generate_typescript.rs: write_type 1558-1645", "src/generate_typescript.rs: write_custom_type 1648-1670"]}
{"id": "C88", "title": "Formatting does not change the generated code", "statement": "Running format on a schema (with any failures of its writes, and also if it is interrupted between two files) does not change what generate does afterwards: it succeeds or fails in the same way, lists the same files, and writes the same Rust and TypeScript text. More generally the generated text depends neither on comments, layout, deleted indices, paths of imports which lead to the same files, nor on the style in which names are written. Conditions: no name becomes a reserved word or loses a word of digits (foo_1 becomes Foo1), and filling loses no comment.", "quantifier": "all file systems, all schemas that load, valid or not, all crash points between writes, all outputs requested, all failures of output", "why_tests_cant": "tests format a few schemas and check the text of the schema, not that of the generated code; the claim is about every schema and every interrupted run", "anchors": ["src/main.rs: format_schema 222-281, generate_code 128-219", "src/schema.rs: Display 124-306", "src/generate_rust.rs: generate 104-404", "src/generate_typescript.rs: generate 124-467"]}
{"id": "C89", "title": "A sender which fails never makes a receiver believe something else", "statement": "Let the generated Rust program write a message to any writer, which may accept bytes in pieces and may fail at any point, and let any leading part of the bytes it wrote arrive, in any pieces, at a program generated from the same or a compatible version. If serialize returned Ok and all bytes arrived, the receiver gets the content which was written. Otherwise the Rust receiver gets exactly the content which the bytes that arrived show, or an error (or, only if the message has a field it does not know, it does not return); the TypeScript receiver gets the content of complete leading fields, or an Error.", "quantifier": "all schemas, pairs of compatible versions, values, writers (any sequence of partial writes, interruptions and failures), crash points, readers and fragmentations", "why_tests_cant": "tests use buffers in memory; the claim composes every behaviour of the writer, every crash point, every version and every fragmentation of the reader", "anchors": ["src/generate_rust.rs: 137-386, 737-800, 804-957, 1193-1283, 1285-1376", "src/generate_typescript.rs: write_schema 563-1327"]}
{"id": "C90", "title": "A crash of format loses no schema", "statement": "Whatever a crash of format leaves behind, each schema file has the text which it had or its formatted text. (False: files are overwritten in place, so a crash can leave an empty schema, for which generate succeeds and writes code without any types; witness proved. Proved: at most one file is damaged, it was one to be changed and has a leading part of its formatted text or cannot be read; every other file has its old or its formatted text; and once the damaged file is restored, generate does what it would have done before.)", "quantifier": "all file systems, schemas and crash points, between and within writes", "why_tests_cant": "tests do not crash; the claim is about every crash point of every run", "anchors": ["src/main.rs: format_schema 222-281"]}
{"id": "C91", "title": "Generated Rust code does not use moved values", "statement": "For every schema which is accepted, no generated Rust function uses a value, or a part of one, after it can have been moved, on any path through branches, loops and closures: the rule by which the Rust compiler would reject the code.", "quantifier": "all accepted schemas, declarations and functions; all paths through each function", "why_tests_cant": "tests compile the code for some schemas; whether a combination of rules and nested types leads to a use after move must be settled for all", "anchors": ["src/generate_rust.rs: write_schema 499-1408, write_into_invocation 1781-1807, write_atlas_calculation 1816-1913, write_serialization_invocation 1957-2075, write_deserialization_invocation 2124-2386"]}
{"id": "C92", "title": "The documented rules are exact for generated programs", "statement": "Let two versions of some schemas be valid, with the same kind of each corresponding declaration, the same types of shared fields and a required field in each choice. Either the versions are related by the documented rules of schema evolution, and programs generated from them, in Rust and TypeScript, read each other's messages; or there is a value which a program generated from one of them writes and which both the Rust and the TypeScript program generated from the other reject with an error. So an edit which is not one of the documented safe ones does break something.", "quantifier": "all pairs of valid versions of schemas, all edits; the messages of all their types", "why_tests_cant": "tests can show that one unsafe change breaks one message; that every change outside the rules breaks a message, at any depth and in both languages, quantifies over schemas", "anchors": ["README.md 295-305", "src/generate_rust.rs: write_schema 499-1408", "src/generate_typescript.rs: write_schema 563-1327"]}
{"id": "C93", "title": "A failed run tells where and what is wrong", "statement": "If loading or validating fails, printing the errors does not panic, and what is printed consists of the errors, in the order in which they were found, and white space between them. The text of each error in a file begins with [Error], the path of the file in which the offending import, declaration, field, type or symbol is, and the message, and shows the lines of that part in the file's text. Without colours, each thing that is wrong with a loaded file (cycles apart, for which the types are named) is found in the output with its file and message; the output is never empty.", "quantifier": "all file systems, all contents of files, all errors", "why_tests_cant": "tests compare a few messages; that no error is lost when errors are merged, and that no listing panics, quantifies over contents", "anchors": ["src/error.rs: Error 14-40, throw 43-87", "src/format.rs: code_str 10-20", "src/error_merger.rs: merge_errors 4-34", "src/validator.rs: validate 20-172", "src/schema_loader.rs: load_schemas 43-265", "src/main.rs: generate_code 136-141, main 394-400"]}
{"id": "C94", "title": "Rolling deployments never lose a message", "statement": "Let each version of the schemas be valid and each single change obey the documented rules, and let a program be started only when every program which is running, and every message which is in flight or stored, is at most one version away from it. Whatever happens (programs of two versions side by side, updates one by one, rollbacks, messages kept, copied, dropped or reordered), every program which is running reads every message which is around, in Rust and in TypeScript. All programs can be replaced by the next or the previous version without ever running fewer of them. Waiting is necessary: programs two versions apart may reject each other's messages.", "quantifier": "all histories of schemas, all interleavings of writes, updates and rollbacks, all contents", "why_tests_cant": "a statement about all histories: tests exercise a few pairs of versions", "anchors": ["README.md: 293-308", "src/generate_rust.rs: 104-404", "src/generate_typescript.rs: 124-467"]}
{"id": "C95", "title": "What a run prints, does and returns", "statement": "The exit code of a run is 0 exactly if it did all that it was asked to do; then its last line on standard error is Done. (for generate and format). If something fails, nothing is done after the failure, the failure (and the reason given by the operating system) is printed to standard error, and the exit code is 1. Standard output has exactly the list of schemas (if asked for, and if the schemas are valid) or the completion script, and nothing else. Each file is announced before it is written. The names of shells are understood in upper and lower case. The program panics only if loading does.", "quantifier": "all command lines, all file systems, all answers of the operating system, all outcomes of loading and validation", "why_tests_cant": "tests of the command line run a few scenarios; the order of effects and messages under all failures of the file system cannot be enumerated", "anchors": ["src/main.rs: generate_code 128-219, format_schema 222-281, shell_completion 284-308, entry 311-391, main 394-400", "src/count.rs: count 3-9"]}
{"id": "C96", "title": "One-way compatibility", "statement": "Programs generated from one version of the schemas can read whatever programs generated from another version write (getting the content, restricted to what they know) if, for all corresponding declarations, the reader's version insists on no more than the writer's version guarantees: fields of a struct which are required for the reader are required or asymmetric for the writer; fields of a choice which are required for the writer are required or asymmetric for the reader. If no struct became a choice or vice versa, this is exact: otherwise there is a message which all readers reject. The documented rules of schema evolution are this condition in both directions. The versions may be any number of changes apart.", "quantifier": "all pairs of valid versions of schemas, all relations between their declarations, all messages, both languages on both sides", "why_tests_cant": "there are infinitely many pairs of schemas and messages; that a condition is exact needs a message for every violation", "anchors": ["README.md: 295-308, 605-625", "src/generate_rust.rs: struct 517-974, choice 975-1408", "src/generate_typescript.rs: write_schema 563-1327"]}
{"id": "C97", "title": "Syntax errors name what is there", "statement": "Each message that something was expected says that it was expected at the end of the file exactly if the listed place is the end of the last token in the file, with only white space after it; otherwise it names the text in the source which is listed: words, symbols and paths as they are written, names without the dollar sign, numbers without leading zeros, comments by paragraph. What is there is never a token for which the stated expectation stands. A file with only white space is a valid schema; and tokens are never left over without another error.", "quantifier": "all source texts, all errors of the parser, with and without colours", "why_tests_cant": "there are infinitely many wrong texts, and the place of an error depends on all of the text before it", "anchors": ["src/parser.rs: token_source_range 17-28, unexpected_token 53-88, parse 195-231", "src/token.rs: Display 63-109"]}
