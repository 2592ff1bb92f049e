import json
P=[]
def p(id,title,statement,quantifier,why,anchors):
    P.append(dict(id=id,title=title,statement=statement,quantifier=quantifier,why_tests_cant=why,anchors=anchors))
R="src/generate_rust.rs"; T="src/generate_typescript.rs"
p("C01","Variable-width integers round-trip in Rust","For every unsigned 64-bit value v and any bytes that follow it, decoding the variable-width encoding of v yields exactly v and leaves exactly the bytes that followed.","all v in [0,2^64) and all byte suffixes","2^64 values times unboundedly many suffixes; the nine ranges have 16 off-by-one boundaries",[f"{R}: serialize_varint, deserialize_varint"])
p("C02","Variable-width integers use the documented layout and length","The encoding of n has exactly the number of bytes the README's nine ranges give, equals what the size function reports, equals what the first byte's trailing zeros announce, and carries n minus the range's base in little-endian order after the unary length marker.","all v in [0,2^64)","all 2^64 values",[f"{R}: varint_size_from_value, varint_size_from_first_byte, serialize_varint","README.md: Variable-width integers"])
p("C03","Variable-width integers are self-delimiting and (up to 8 bytes) canonical","No encoding is a proper prefix of another; distinct values have distinct encodings; every byte string of at most 8 bytes that decodes completely is the encoding of the value it decodes to. Nine-byte strings are not canonical: some wrap around.","all values and all byte strings","ranges over pairs of values and all byte strings",[f"{R}: serialize_varint, deserialize_varint"])
p("C04","ZigZag is a bijection that keeps small magnitudes small","ZigZag decoding inverts encoding and vice versa on all 64-bit integers, and the encoding of n is 2n for n>=0 and -2n-1 for n<0.","all signed and all unsigned 64-bit integers","2^64 values",[f"{R}: zigzag_encode, zigzag_decode","README.md: Signed variable-width integers"])
p("C05","Field headers round-trip","For each field index up to 2^62-1, payload size and integer-encoding flag, reading a header followed by its payload yields the same index and the payload's size and leaves exactly the payload; the header-size function is exact; the header of a Unit, F64, U64, S64 or Bool field with index below 32 is one byte; the maximum index is tight (2^62 would collide with 0).","all indices, payloads, flags","three independent unbounded/2^62-sized parameters",[f"{R}: field_header_size, serialize_field_header, deserialize_field_header","src/validator.rs: MAX_FIELD_INDEX"])
p("C06","Every message round-trips through the generated Rust code","For every well-formed user-defined type and each writer-side message of it (fitting in memory), serialising and then deserialising with the same type succeeds and gives the reader-side view of exactly that message (every field, element, nested message, and exposed fallback).","all valid types (any nesting) and all messages","unboundedly many schemas and messages",[f"{R}: write_serialization_invocation, write_deserialization_invocation, write_module_contents"])
p("C07","size() is exact and serialisation with one's own atlas never panics","For each message, size() equals the number of bytes serialize() writes, and the panic arm for mismatched atlases is never reached.","all types and messages","unboundedly many messages; two separately generated code paths must agree",[f"{R}: write_atlas_calculation, write_atlas_lookup, write_size_function, write_serialize_function"])
p("C08","Serialisation loses no information and has no default values","Two messages with the same bytes have the same reader-side view; in particular a present zero/empty/false value and an absent optional value never have the same encoding.","all pairs of messages of a type","pairs of messages",[f"{R}: write_serialization_invocation","README.md: What about default values?"])
p("C09","Unrecognised struct fields are ignored","Inserting any well-formed field with an index the reader does not know, at any field boundary of a serialised struct, does not change the result of deserialisation.","all structs, messages, positions, unknown fields","all combinations of message, position and unknown field",[f"{R}: skip, write_module_contents (struct deserialize_from_reader_ref)"])
p("C10","Field order on the wire does not matter for structs","Reordering the serialised fields of a struct does not change what is deserialised; hence reordering declarations is compatible.","all permutations of all messages' fields","factorially many orders of unboundedly many messages",[f"{R}: struct deserialize_from_reader_ref"])
p("C11","A struct lacking a required field never deserialises","If the input of a struct deserialiser contains no field with the index of some required field, deserialisation does not succeed; if it consists of well-formed fields, it fails with InvalidData.","all structs and all inputs","all inputs",[f"{R}: [tag:required_fields_present]"])
p("C12","Deserialisation of arbitrary bytes terminates","For every input, the generated Rust deserialiser terminates. (False as stated: a truncated unrecognised field makes it spin forever. Proved: the witness, and termination whenever the reader does not meet a truncated unknown field.)","all types and all byte strings","all byte strings; non-termination cannot be observed by a test",[f"{R}: skip, finish, deserialize_from_reader_ref"])
p("C13","Deserialisation of arbitrary bytes never panics","For every input, the generated Rust deserialiser does not panic or abort on allocation. (False as stated: the claimed payload size is reserved before reading. Proved: the witness, and absence of panics when every claimed size is within the allocation limit.)","all types and byte strings","all byte strings",[f"{R}: write_deserialization_invocation reserve_exact"])
p("C14","A choice reader uses the first field of the chain it recognises","Deserialising a serialised choice chain with any compatible reader type yields the first field in the chain whose index the reader knows; for optional fields the rest of the chain is the exposed fallback.","all chains, all reader types","chains of any length against all reader types",[f"{R}: choice deserialize_from_reader_ref","README.md: Choices"])
p("C15","A choice with no recognised field never deserialises","If the input has no field recognised by the choice reader, or ends in optional fields only, deserialisation does not succeed.","all choices and inputs of well-formed fields","all inputs",[f"{R}: choice deserialize_from_reader_ref"])
p("C16","Compatible readers can read every message of the writer","If reader type and writer type satisfy the documented direction-wise conditions (recursively), then each message of the writer deserialises successfully with the reader, all shared fields carry the written values, fields not written are absent.","all pairs of related types, all messages","all pairs of schemas and messages",[f"{R}: whole generated code","README.md: Summary of what kinds of schema changes are safe"])
p("C17","Each documented safe schema change is safe in both directions","Renaming and reordering fields, adding/removing optional and asymmetric fields, converting asymmetric to/from optional/required, and struct with one required field to/from choice: old writers can be read by new readers and new writers by old readers, at any nesting depth.","all types, all single changes, all messages","all schema pairs",["README.md: Summary of what kinds of schema changes are safe"])
p("C18","The compatibility relation is reflexive and symmetric but not transitive","The relation generated by the single-change rules is reflexive and symmetric, and there are two safe changes whose composite is unsafe.","all types","universal over types",["README.md: Summary"])
p("C19","The documented unsafe changes really are unsafe","Adding a required field to a struct makes every old message unreadable; dropping a required choice field makes every message ending with that field unreadable; optional to required in a struct makes messages without it unreadable; making a required choice field optional makes messages with it unreadable.","all types and messages meeting the description","all types and messages",["README.md: Required fields are tricky; Choices"])
p("C20","Any user-defined type can be migrated to any other by safe changes","For any two well-formed user-defined types there is a finite sequence of single safe changes from one to the other.","all pairs of types","existence of a path for all pairs",["README.md: Summary"])
p("C21","Scalar encodings have the documented sizes","U64/S64 field payloads take 0-8 bytes, elements 1-9; F64 fields 0 or 8; Bool 0 or 1; zero is empty; values >= 567382630219904 take 8 bytes; a simple enum with index below 32 takes one byte in total.","all scalar values","2^64 values",[f"{R}: write_u64_serialization_invocation","README.md: Built-in types"])
p("C22","Converting an outgoing message to an incoming one in memory agrees with sending it","The generated From<Out> for In conversion of a message equals the result of serialising then deserialising it.","all types and messages","all messages",[f"{R}: write_into_invocation, From impls"])
p("C23","Memory used by a deserialised message is bounded by a schema-dependent multiple of the input size, except for [Unit]","The in-memory size of a successfully deserialised value (not counting units) is at most a constant depending only on the type times (input length + 1).","all types and inputs","all inputs",["README.md: Security"])
p("C24","TypeScript and Rust serialise a message to the same bytes","For each type and each message, the TypeScript encoder produces exactly the bytes the Rust encoder produces.","all types and messages","all messages across two code bases",[f"{T}: write_serialization_invocation, write_atlas_calculation",R])
p("C25","Messages written by either language are read identically by the other","The TypeScript deserialiser applied to bytes serialised by Rust (or TypeScript) yields the reader-side view of the message, as the Rust one does (strings compared as code point sequences, excluding those that begin with a byte order mark).","all types and messages","all messages",[f"{T}: write_deserialization_invocation"])
p("C26","Rust and TypeScript readers agree on every input","Both decoders give the same outcome on each input. (False: duplicate fields, truncated payloads, truncated unknown fields; witnesses proved.)","all byte strings","all inputs",[f"{T}",f"{R}"])
p("C27","The TypeScript deserialiser never reads outside the view it is given","(False: payload views are bounds-checked against the underlying buffer only; witness proved. For inputs in which every field lies within its parent the reads stay inside.)","all buffers and views","all inputs",[f"{T}: write_deserialization_invocation, new DataView"])
p("C28","The validator accepts exactly the well-formed schemas","Validation succeeds iff: declaration names are unique per file; field names and indices unique per declaration; indices within the bound; used and deleted indices are disjoint and together are exactly 0..n-1; each named type exists in the named import or file; no type contains itself, directly or via arrays.","all sets of loaded schemas","all schemas",["src/validator.rs: validate, validate_type, check_declaration_for_cycles"])
p("C29","Cycle detection is sound and complete and terminates","For schemas otherwise valid, a cycle error is reported iff the contains-relation on declarations has a cycle, and the check terminates.","all finite type graphs","all graphs; termination",["src/validator.rs: check_declaration_for_cycles, check_type_for_cycles"])
p("C30","Each type of a validated schema denotes a finite well-formed wire type","For each declaration of a schema set accepted by the validator, unfolding references terminates and gives a type with distinct in-range indices, so the codec theorems apply to all code Typical generates.","all accepted schemas","all schemas",["src/validator.rs","src/generate_rust.rs: write_type"])
p("C31","Names do not affect the wire format","Two schemas that differ only in the names of fields, types, imports or comments unfold to the same wire types.","all schemas and injective renamings","all schemas and renamings",["README.md: Fields", "src/generate_rust.rs"])
p("C32","Sparse indices need deleted markers","(README: indices need not be consecutive; largest possible index 2^62-1.) The validator accepts a declaration's indices iff used and deleted indices are exactly an initial segment, so any accepted index is smaller than the number of used plus deleted indices.","all declarations","all index sets",["src/validator.rs: validate","README.md: Fields"])
p("C33","Tokens tile the source","On success every token's source range is nonempty, in bounds, ranges are strictly increasing and disjoint, and all characters outside them are whitespace; on failure at least one error is reported and each names an in-bounds range.","all source strings","all strings",["src/tokenizer.rs: tokenize"])
p("C34","Tokenising inverts printing of tokens","Tokenising the space-separated printed forms of any sequence of keywords, symbols, integers, identifiers and paths gives back that sequence.","all token sequences","all sequences",["src/tokenizer.rs: tokenize","src/token.rs"])
p("C35","The parser never panics","For each token sequence, parsing returns a schema or errors. (False: a comment at the end of the file after an import or declaration makes it index out of bounds; witness proved. Proved for the rest.)","all token sequences","all sequences",["src/parser.rs: parse, parse_schema"])
p("C36","Formatting preserves meaning","For every source which parses, the formatted text of its schema parses again, to the same schema up to source ranges, the case style of names, and re-filled comment paragraphs; and with unchanged comments if the filler only breaks lines at spaces. Exceptions, which are proved to be real: names which become reserved words (`$struct`, a type `string`) and type names with a word beginning with a digit (`f_1`).","all source texts, Unicode tables and comment fillers","all source texts",["src/schema.rs: Display","src/main.rs: format_schema","src/parser.rs: parse","src/tokenizer.rs: tokenize"])
p("C37","Formatting is idempotent","For every source which parses and whose names do not become reserved words, the formatted text parses, and formatting it again gives the same text, provided that filling a filled comment does not change it.","all source texts, Unicode tables and comment fillers","all source texts",["src/schema.rs: Display","src/main.rs: format_schema","src/parser.rs: parse","src/tokenizer.rs: tokenize"])
p("C38","Identifier identity is case-convention independent","Two identifiers are equal iff they have the same words; converting to snake, camel or Pascal case and reading back gives an equal identifier when no word begins with a digit. (Without that condition false: foo_1 and foo1 are different fields with the same generated Pascal/camel name; witness proved.)","all identifiers","all strings",["src/identifier.rs"])
p("C39","Relative namespaces resolve to the intended module","The relative path printed for a type reference (number of supers plus components) resolves from the referencing module to the referenced namespace, and uses the fewest supers.","all pairs of namespaces","all pairs",["src/schema.rs: relativize_namespace","src/generate_rust.rs: write_type, write_supers"])
p("C40","Loading gives exactly the transitive imports","On success the loaded schemas are exactly those reachable by imports from the root, each import is annotated with the namespace of the file it denotes, and loading terminates even for cyclic imports.","all file systems","all import graphs",["src/schema_loader.rs: load_schemas"])
p("C41","Distinct files with the same namespace are rejected","(False: the conflict check is unreachable, so one of the files is silently dropped; witness proved.)","all file systems","all import graphs",["src/schema_loader.rs: load_schemas"])
p("C42","format --check never writes and fails iff some file would change","With --check, no file is written, and the command succeeds iff all files load and equal their formatted text; without it exactly the differing files are written, and after a successful run --check succeeds and another run writes nothing (under the conditions of C37).","all file contents","all inputs",["src/main.rs: format_schema"])
p("C43","Every declared type is generated exactly once in its module","In the module tree built from the loaded schemas, looking up a namespace gives exactly the schema loaded under it.","all schema sets","all sets",["src/generate_rust.rs: insert_schema, write_module"])
p("C44","The code generator writes no output if loading or validation fails","For all inputs, output files are written only after all schemas loaded and validated.","all inputs and failures","all failure points",["src/main.rs: generate_code"])
p("C45","Serialised bytes follow the documented binary format","The bytes of a message are those the README's 'Binary encoding' section prescribes: each struct is the concatenation of its present fields in declaration order, each field a header with index and size mode and its payload, each choice its field followed by the fallback's fields, arrays with or without element sizes.","all types and messages","all messages",["README.md: Binary encoding","src/generate_rust.rs: write_serialization_invocation"])
p("C46","The TypeScript deserialiser terminates on every input","For every type and every view of every buffer, deserialising ends: with a value, a RangeError or the error for missing fields.","all types, all buffers and views","all inputs",[f"{T}: deserializeUnsafe loops"])
p("C47","References in generated TypeScript resolve to the intended type","Each reference to a type in the generated TypeScript resolves, by TypeScript's scoping rules, to the type the schema refers to. (False: absolute dotted paths are shadowed by inner namespaces, e.g. for a file x/x.t or a type named like its file; witnesses proved. Proved: the exact condition under which a reference resolves correctly.)","all schema sets, all references","all namespaces and references",[f"{T}: write_custom_type, write_module"])
p("C48","The parser accepts exactly the documented grammar, unambiguously","A sequence of tokens parses to a schema iff it is that schema by the grammar (comment, imports, declarations, fields, deleted indices, types); no sequence is two schemas; on other sequences at least one error is reported (or C35's panic).","all token sequences and schemas","all sequences",["src/parser.rs: parse, parse_schema, parse_import, parse_field, parse_type"])
p("C49","Error listings point at the right lines and never panic","For every source range which the tokenizer, the parser or a parsed schema yields, rendering the listing returns; it shows exactly the lines the range touches, once each, in order, with their numbers, and highlights exactly the characters in the range (without white space at the beginning of continued lines and at line ends). Without colours the marks are below those characters in ASCII lines. (An arbitrary range can make the renderer panic, an empty range at the beginning of a line shows nothing, and non-ASCII text shifts the marks; witnesses proved.)","all source texts, all errors and schemas","all source texts and ranges",["src/error.rs: listing","src/tokenizer.rs: tokenize","src/parser.rs: parse, span_tokens"])
p("C50","Merging errors loses none of them","The text of a merged error consists of the texts of all its errors, in order, without white space at their ends and with only white space between them.","all lists of errors","all lists",["src/error_merger.rs: merge_errors"])
p("C51","TypeScript serialises a choice with the field the message was built with","The object for a field of a choice is recognised as that field by the generated serialiser. (False: a field before it named like a property of Object.prototype, e.g. to_string or value_of, or with the same camel-case name, is taken instead; witness proved. Proved: the exact condition, and that names accepted by the validator suffice otherwise.)","all choices, all fields","all schemas",[f"{T}: atlas and serializeWithAtlasUnsafe of choices, write_choice"])
p("C52","All names in generated code are legal identifiers","Every identifier which the generators write for a plain ASCII name in a schema is an identifier of the target language. (False for Rust: the local variable for a struct field named like a keyword is _r#type; self, super, crate cannot be raw identifiers; witnesses proved. Proved: the exact conditions for Rust; without conditions for Rust type names and for TypeScript.)","all names","all names",[f"{R}: write_identifier, RUST_KEYWORDS",f"{T}: write_identifier, TYPESCRIPT_KEYWORDS"])
p("C53","Built-in objects used by generated TypeScript are not shadowed","A use of Error, DataView, ArrayBuffer etc. in the generated code refers to the global object. (False: a type or file named error shadows Error in its namespace; witness proved. Proved for all schema sets without such names.)","all schema sets","all schema sets",[f"{T}: write_schema, write_module"])
p("C54","The result does not depend on how the reader delivers the bytes","For every reader which does not fail, whatever the sizes of its buffers and reads, deserialising gives the same result as from the whole byte string, and a successful call has consumed the reader to its end.","all types, all byte strings, all schedules of deliveries","all schedules",[f"{R}: deserialize_varint, deserialize_field_header, skip, finish, deserialize_from_reader_ref"])
p("C55","An error of the reader is never mistaken for the end of the message","If the reader fails, deserialisation fails, with the reader's error or with an error which the bytes delivered until then imply; interruptions are retried. (False: a reader's error of kind UnexpectedEof ends a struct or array as if it were complete; an interruption while a field is skipped or its size is peeked at is passed on. Witnesses proved. Proved for all other kinds of errors.)","all types, all readers, all points of failure","all points of failure",[f"{R}: deserialize_field_header, skip, finish, deserialize_from_reader_ref"])
p("C56","Serialisation to any writer writes the message or reports the writer's error","A successful serialisation has written exactly the message's bytes, in order, however little the writer accepts at a time; a failed one reports the writer's error and has written a proper prefix of them.","all types, messages, and writers","all points of failure",[f"{R}: serialize_varint, serialize_field_header, serialize_with_atlas"])
p("C57","Editing schema files by the documented rules keeps all message types compatible","If corresponding declarations of two valid versions of a set of schema files are related by the documented rules (fields renamed, reordered, added or removed unless required, rules changed to or from asymmetric, single required field struct to/from choice, declarations and files renamed), then old and new version of every declaration, including all those which merely refer to changed ones, read each other's messages, in Rust and TypeScript.","all valid schema sets, all sets of safe edits, all messages","all schema sets and edits",["README.md: lines 295-305", "src/validator.rs: validate", f"{R}: write_schema", f"{T}: write_schema"])
p("C58","Whenever generation succeeds, the generated code round-trips all messages in both languages","If the generate command succeeds on a file, each declaration in each file reachable by imports has one wire type, and each message of it is serialised to the same bytes by the generated Rust and TypeScript code and read back by both as what was written.","all file systems, all schema files, all messages","all schemas and messages",["src/main.rs: generate_code", "src/schema_loader.rs: load_schemas", "src/validator.rs: validate", f"{R}: write_schema", f"{T}: write_schema"])
p("C59","The validator reports every mistake, where it is","If something other than a cycle is wrong with the loaded schemas, the errors are exactly the duplicate declarations, duplicate field names and indices, deleted or too large indices, index gaps, unknown imports and unknown types of all files, each with its file and the source range of the offending declaration, field or type; none is missing or spurious. Otherwise the errors are exactly cycles.","all loaded schema sets","all schema sets",["src/validator.rs: validate, validate_type"])
p("C60","The loader reports exactly the problems of the files reachable by imports","If loading fails, each reported error is a problem of a file reachable by imports (unreadable, not tokens, not a schema, an import which leads nowhere or outside of the base directory); and if no two reachable files have the same namespace, every such problem of every reachable file is reported, not only the first.","all file systems and import graphs","all import graphs",["src/schema_loader.rs: load_schemas"])
p("C61","The conditions for safe changes are exact","A schema change outside the documented rules is not merely undocumented: if the new reader type violates the condition at any depth (and every choice of the writer has a required field, so that messages exist), there is a message of the old type which the new reader rejects. If no struct becomes a choice or vice versa, two versions can read all of each other's messages exactly if they are related by the documented rules.","all pairs of wire types whose shared fields have the same shape; all messages","A test shows that one particular change breaks one message; that every violation at any depth breaks some message needs a construction for all types.",[R+":struct and choice serialization and deserialization","README.md:295-305"])
p("C62","The recursion depth of Rust deserialisation is bounded by the schema exactly if no choice has an optional field","For every input, the number of nested calls of generated deserialisers is at most the nesting of declarations in the type plus the number of bytes of the input; without optional fields in choices it is at most the nesting of the type whatever the input is. With an optional field in any choice, at any depth, it is unbounded: messages written by the generated code itself need any number of nested calls, at one call per byte.","all types, all inputs","The deepest recursion on any input cannot be observed by running some inputs.",[R+":deserialize_from_reader_ref (structs 804-957, choices 1285-1376)","README.md:473-480"])
p("C63","A message which is cut off is read as what is left of it, and reading it ends if the reader knows its fields","If a serialised message is cut off after any number of bytes (a crash of the writer, a lost connection), the Rust deserialiser gets exactly what a reader gets from the content which is left: complete fields, and the last one cut off (a shorter Bytes value, string, array or nested value); it returns that value, or UnexpectedEof or InvalidData if that content cannot be read. It never panics, and it always returns if it knows all fields of the message. (Truncation is not always detected: witness proved.)","all types of writer and reader, all messages, all cut points","The cut can be at any byte of any message of any type; tests try some.",[R+":deserialize_from_reader_ref (structs 804-957, choices 1285-1376)",R+":write_deserialization_invocation"])
p("C64","Names of the standard library in the generated Rust refer to the standard library, whatever files and types are called","In the generated Rust file, the names imported at the top and the uses of std and of the prelude refer to the standard library, whatever the files, directories, types and fields of the schemas are called. (False: a file or directory io or std at the top, or a file main.t with a struct beside main/std.t, breaks the generated code; these are the only cases.)","all sets of loaded schema files with ASCII names","all names of files and types",[f"{R}: generate, write_schema, write_module, write_deserialization_invocation"])
p("C65","No scope of the generated code contains two definitions with the same name","Modules, types, fields and variants in the same scope of the generated Rust, and types in the same namespace and properties of the same type of the generated TypeScript, have different names, if the validator accepts the schemas. (False exactly for names which differ only in underscores before digits, such as v1 and v_1.)","all sets of schemas which the validator accepts, with ASCII names","all names",[f"{R}: write_module_contents, write_struct, write_choice, write_identifier",f"{T}: write_module_contents, write_struct, write_choice, write_identifier","src/identifier.rs: pascal_case, camel_case"])
p("C66","In TypeScript a message which is cut off is read as its complete leading fields or rejected, never with a part of a value","If a serialised message is cut off after any number of bytes, a TypeScript reader of a compatible type gets exactly what it gets from the complete fields before the cut, or an exception: a RangeError exactly if the cut is in the value of a field it knows (for choices: if the complete fields give no value), the missing-field error if a required field is lost. It never gets a part of a value, and never loses a required field. (Losing optional fields is not detected: witness proved. In Rust, parts of values are accepted: C63.)","all types of writer and reader, all messages, all cut points","The cut can be at any byte of any message of any type; tests try some.",[T+": deserialize (structs 820-969, choices 1210-1318)", T+": deserializeFieldHeader (420-441)"])
p("C67","The generated Rust serialiser writes the documented bytes of every value of every declaration","For every set of valid schemas whose names do not collide, every declaration and every value of its Out type whose documented layout has less than 2^64 bytes: executing the generated size method returns the number of bytes of that layout, changes nothing, and no sum in it overflows; executing the generated serialize method appends exactly the documented layout of the value's content and returns Ok(()). The statement is about the code which the generator prints for the declaration, executed statement by statement, not about a decoder written by hand.","all valid sets of schemas (any number of files, declarations, fields; any nesting), all values","all schemas and values; tests run one schema with some values",[f"{R}: write_schema (struct 517-974, choice 975-1408), write_atlas_calculation 1816-1913, write_atlas_lookup 1919-1944, write_serialization_invocation 1957-2110"])
p("C68","The generated Rust deserialiser decodes every byte string as the decoder of the wire type does","For every set of valid schemas whose names do not collide, every declaration and every byte string: executing the generated deserialize function ends as the decoder for the declaration's wire type does - it returns Ok with a value of the In type which has the decoded content, having read everything; or the same error, panic or endless skip.","all valid sets of schemas, all byte strings","all schemas and inputs",[f"{R}: write_schema, write_deserialization_invocation 2124-2386"])
p("C69","The generated conversion and the generated round trip agree","Executing the generated From conversion on a value of the Out type gives the value of the In type with the content that a reader is shown; executing serialize and then deserialize on its output gives the same value.","all valid sets of schemas, all values within the memory limit","all schemas and values",[f"{R}: From implementations (580-632, 1038-1099), write_into_invocation 1781-1807"])
p("C70","Whenever generate succeeds, the Rust file it writes contains code which round-trips every value","If the generate command succeeds, it has written the Rust file; each function of the generated program is in its text; and (if names do not collide) for each declaration of each file reachable by imports, executing the generated serialize on any value and then the generated deserialize gives a value with the content that a reader is shown.","all file systems, all schema files, all values","all inputs of the whole tool chain",["src/main.rs: generate_code",f"{R}: generate 104-404, write_module, write_schema"])
p("C71","Programs generated from two compatible versions of the schemas understand each other","If the declarations of two versions of some schemas are related by the documented rules, whatever the program generated from one version writes is read without an error by the program generated from the other; what it gets is the written content restricted to what its version knows.","all pairs of valid versions, all values","all schemas, edits and values",["README.md: lines 295-305",f"{R}: write_schema"])
p("C72","The generated TypeScript serialiser returns the documented bytes of every value of every declaration","For every set of valid schemas whose names do not collide, every declaration and every JavaScript value of its Out type: executing the generated size function returns the number of bytes of the message; executing the generated serialize function returns a new ArrayBuffer which contains exactly the documented layout of the value's content. No existing array or buffer is changed. The statement is about the code which the generator prints, executed statement by statement, including the varint and header functions at the top of the file. Unless a field of a choice is named like a property which all objects inherit, every message of the wire type is the content of such a value.","all valid sets of schemas (any number of files, declarations, fields; any nesting), all values and heaps","all schemas and values; tests run one schema with some values",[f"{T}: generate (runtime functions 172-446), write_schema (struct 581-973, choice 974-1318), write_atlas_calculation 1724-1938, write_atlas_lookup 1944-1973, write_serialization_invocation 1987-2198, write_size_function, write_serialize_function"])
p("C73","The generated TypeScript deserialiser always returns and never throws","For every set of valid schemas whose names do not collide, every declaration and every ArrayBuffer, DataView or typed array with any bytes: executing the generated deserialize function returns; it does not throw. It returns a value of the In type with the content which the decoder of the wire type gives, made of new arrays and buffers, or a RangeError, or the error that a required field is missing, exactly as the decoder does. No existing array or buffer is changed.","all valid sets of schemas, all inputs of the three kinds, at any offset in any buffer","all schemas and inputs",[f"{T}: write_deserialize_function 1516-1555, write_schema, write_deserialization_invocation 2215-2533, deserializeVarint, deserializeFieldHeader"])
p("C74","Programs generated for Rust and TypeScript from the same schemas exchange all messages","Whatever the generated TypeScript serialize returns, the generated TypeScript deserialize and the generated Rust deserialize read; whatever the generated Rust serialize writes, the generated TypeScript deserialize reads; in each case the result is a value of the In type with the content which a reader is shown. (For TypeScript readers: unless a string begins with a byte order mark, see C25.)","all valid sets of schemas, all values, both languages","all schemas and values",[f"{T}: write_schema",f"{R}: write_schema"])
p("C75","TypeScript programs generated from two compatible versions of the schemas understand each other","If the declarations of two versions of some schemas are related by the documented rules, whatever the TypeScript program generated from one version writes is read without an error by the TypeScript program generated from the other; what it gets is the written content restricted to what its version knows.","all pairs of valid versions, all values","all schemas, edits and values",["README.md: lines 295-305",f"{T}: write_schema"])
p("C76","Whenever generate succeeds, the TypeScript file it writes contains code which round-trips every value","If the generate command succeeds, it has written the TypeScript file; each function of the generated program is in its text, in the namespace of its declaration; and (if names do not collide) for each declaration of each file reachable by imports, executing the generated serialize on any value and then the generated deserialize gives a value with the content that a reader is shown.","all file systems, all schema files, all values","all inputs of the whole tool chain",["src/main.rs: generate_code",f"{T}: generate 124-467, write_module 509-536, write_schema 563-1327"])
p("C77","A stack overflow in generated TypeScript code never gives a wrong result","However small the stack which is left: the generated size and serialize functions either end as they would with an unlimited stack or throw a RangeError; the generated deserialize function does not throw, and what it returns is what it would return with an unlimited stack, or an error.","all valid sets of schemas, all values and inputs, all sizes of the stack and of stack frames","the size of the stack left is up to the caller and the engine; overflow can happen at every call",[f"{T}: write_schema (struct deserializeUnsafe 849-920, catch 865-876), write_deserialize_function 1516-1555"])
p("C78","The stack which the generated TypeScript deserialiser needs is bounded by the schema unless a choice has an optional field","If no choice in the type of a declaration has an optional field, then a stack for (nesting of the type + 4) frames is enough for deserialize, for every input: it ends as with an unlimited stack. With an optional field in a choice no stack is enough: there is a message with as many bytes as the stack, valid and accepted on a larger stack, for which deserialize returns a RangeError.","all valid sets of schemas, all inputs, all sizes of the stack and of stack frames","all inputs and stack sizes",[f"{T}: choice deserializeUnsafe 1208-1318 (fallback), write_deserialize_function 1516-1555"])
p("C79","An integer which does not fit its field is never changed silently by generated TypeScript code","Whatever bigint is given for a field of type U64 or S64 (README: integers map to bigint), serialize throws, or deserialize of its result gives the same bigint.","all integers","the type bigint has infinitely many values, and every one out of range is affected",[f"{T}: serializeVarint 233-316, zigzagEncode 176-179, write_u64_serialization 2171-2198, write_type 1558-1645 (bigint)","README.md line 493"])
p("C80","The functions at the top of generated Rust code do what the format says, never panic and do not depend on overflow checks","The eleven functions which every generated Rust file begins with, executed as printed: for all arguments of the right types and on all readers and writers they never panic (no overflow, index or slice out of bounds), behave the same with and without overflow checks (debug and release builds), write integers and field headers exactly as documented, read them back from a reader which gives the bytes in any pieces, and skip and finish consume exactly what they should.","all arguments, readers, writers, word sizes from 16 bits, build modes","overflow depends on 64-bit arguments, and the pieces a reader gives are arbitrary",[f"{R}: zigzag_encode 158-160, zigzag_decode 162-164, varint_size_from_value 166-178, varint_size_from_first_byte 180-182, serialize_varint 184-272, deserialize_varint 274-301, field_header_size 303-316, serialize_field_header 318-336, deserialize_field_header 338-362, skip 364-373, finish 375-386"])
p("C81","Generated Rust code reads the same bytes in the same way on targets of 32 and 64 bits","The functions at the top of the generated Rust file give the same results and leave the same bytes unread on targets whose usize has 32 and 64 bits.","all readers, writers, arguments and word sizes from 16 bits","tests run on one target, with small sizes",[f"{R}: deserialize_field_header 338-362 (as usize), skip 364-373, field_header_size 303-316"])
p("C82","Programs in different languages, generated from different versions, read each other's messages","If the declarations of two versions of some schemas are related by the documented rules, then whatever the Rust or TypeScript program generated from one version writes, the Rust and the TypeScript program generated from the other version read without an error, and they get the content which was written, restricted to what their version knows.","all pairs of versions, schemas, values, readers and writers in both languages","quantifies over pairs of schemas, values and languages",[f"{R}: write_schema 499-1411",f"{T}: write_schema 563-1327","README.md lines 295-305"])
p("C83","What generated programs get from a message which is cut off","Let a message written by a generated Rust or TypeScript program be cut off anywhere. The Rust program of the same or a compatible version returns exactly the content which the remaining bytes show, or an error, or (only if it does not know a field of the message) does not return; it never panics. The TypeScript program always returns: the content of the leading complete fields, or an Error; never a part of a value.","all schemas, versions, messages and positions of the cut","one case per message and position",[f"{R}: write_schema 499-1411, skip 364-373",f"{T}: struct deserialize 818-970, choice deserialize 1208-1318"])
p("C84","Generated Rust programs on real readers and writers","The program which is generated from any accepted schemas, with the runtime functions at the top of the file executed as well, behaves as follows on any device. A reader which delivers some bytes in any pieces (with interruptions) makes deserialize return the same value or the same io::ErrorKind as the bytes at once would, and a message which is read with success is read to its end. A reader which fails makes deserialize return exactly that error, unless the bytes before it already decided on another error. serialize on any writer either writes all of the bytes of the message and returns Ok, or returns an error which the writer reported (or WriteZero if it accepted nothing) after writing a proper prefix. A message which was written with success to such a writer and delivered by such a reader is read back as it was written.","all schemas, values, readers, writers, and schedules of short reads, short writes, interruptions and failures; with or without overflow checks, on 64-bit targets","quantifies over all devices and schedules",[f"{R}: generate 137-386",f"{R}: write_schema 499-1411"])
p("C85","The declared Rust types are the messages","The structs and enums which the generated Rust file declares for a declaration (printed with the names, members, variants and types that Rust resolves through the modules) have exactly the values which hold the content of a message: no value that Rust's type system permits is rejected by size or serialize, deserialize returns Ok only with values of the declared type, conversion takes values of the type for writing to values of the type for reading, and no message content is lacking a value.","all accepted schemas, all declarations, all values","quantifies over all schemas and all values of all generated types",[f"{R}: write_struct 1420-1481",f"{R}: write_choice 1484-1562",f"{R}: write_type 1608-1719"])
p("C86","Generated Rust functions type-check","For every accepted schema, each struct and enum of the generated Rust has distinct member or variant names, only mentions types that exist, and has a finite size (it does not contain itself except behind a pointer), and the body of each generated function (from, atlas, serialize_with_atlas, deserialize_from_reader_ref, size, and the functions of the traits) has the type that its printed signature promises, by Rust's rules for expressions, places (mutability, no move out of a borrow), automatic dereferencing, coercions, patterns and exhaustiveness of match.","all accepted schemas, all declarations, all generated functions","a test compiles the output for some schemas; whether the output compiles depends on the combination of rules, types and nesting of all schemas",[f"{R}: write_schema 499-1416",f"{R}: write_into_invocation 1781-1807",f"{R}: write_atlas_calculation_invocation 1816-1913",f"{R}: write_serialization_invocation 1957-2075",f"{R}: write_deserialization_invocation 2124-2386"])
p("C87","Declared TypeScript types","For every accepted schema (without collisions of names): the value which deserialize returns, if it is not an Error, is a value of the declared In type with no other properties; every value of the declared Out type which has no other properties, and whose bigints fit into the types of the schema, is a message, which size and serialize accept; and every message is a value of the declared Out type. Without the condition on other properties this fails: { a: '', b: '' } has the type { a: bigint } | { b: string } and is taken for an a.","all accepted schemas, all declarations, all values of the declared types, all input bytes, all heaps","tests use some well-typed values; the claim is about every value that the type checker admits, and about every value that is returned",[f"{T}: write_struct 1330-1376",f"{T}: write_choice 1379-1455",f"{T}: write_type 1558-1645",f"{T}: write_custom_type 1648-1670"])
p("C88","Formatting does not change the generated code","Running format on a schema (with any failures of its writes, and also if it is interrupted between two files) does not change what generate does afterwards: it succeeds or fails in the same way, lists the same files, and writes the same Rust and TypeScript text. More generally the generated text depends neither on comments, layout, deleted indices, paths of imports which lead to the same files, nor on the style in which names are written. Conditions: no name becomes a reserved word or loses a word of digits (foo_1 becomes Foo1), and filling loses no comment.","all file systems, all schemas that load, valid or not, all crash points between writes, all outputs requested, all failures of output","tests format a few schemas and check the text of the schema, not that of the generated code; the claim is about every schema and every interrupted run",["src/main.rs: format_schema 222-281, generate_code 128-219","src/schema.rs: Display 124-306",f"{R}: generate 104-404",f"{T}: generate 124-467"])
p("C89","A sender which fails never makes a receiver believe something else","Let the generated Rust program write a message to any writer, which may accept bytes in pieces and may fail at any point, and let any leading part of the bytes it wrote arrive, in any pieces, at a program generated from the same or a compatible version. If serialize returned Ok and all bytes arrived, the receiver gets the content which was written. Otherwise the Rust receiver gets exactly the content which the bytes that arrived show, or an error (or, only if the message has a field it does not know, it does not return); the TypeScript receiver gets the content of complete leading fields, or an Error.","all schemas, pairs of compatible versions, values, writers (any sequence of partial writes, interruptions and failures), crash points, readers and fragmentations","tests use buffers in memory; the claim composes every behaviour of the writer, every crash point, every version and every fragmentation of the reader",[f"{R}: 137-386, 737-800, 804-957, 1193-1283, 1285-1376",f"{T}: write_schema 563-1327"])
p("C90","A crash of format loses no schema","Whatever a crash of format leaves behind, each schema file has the text which it had or its formatted text. (False: files are overwritten in place, so a crash can leave an empty schema, for which generate succeeds and writes code without any types; witness proved. Proved: at most one file is damaged, it was one to be changed and has a leading part of its formatted text or cannot be read; every other file has its old or its formatted text; and once the damaged file is restored, generate does what it would have done before.)","all file systems, schemas and crash points, between and within writes","tests do not crash; the claim is about every crash point of every run",["src/main.rs: format_schema 222-281"])
p("C91","Generated Rust code does not use moved values","For every schema which is accepted, no generated Rust function uses a value, or a part of one, after it can have been moved, on any path through branches, loops and closures: the rule by which the Rust compiler would reject the code.","all accepted schemas, declarations and functions; all paths through each function","tests compile the code for some schemas; whether a combination of rules and nested types leads to a use after move must be settled for all",["src/generate_rust.rs: write_schema 499-1408, write_into_invocation 1781-1807, write_atlas_calculation 1816-1913, write_serialization_invocation 1957-2075, write_deserialization_invocation 2124-2386"])
p("C92","The documented rules are exact for generated programs","Let two versions of some schemas be valid, with the same kind of each corresponding declaration, the same types of shared fields and a required field in each choice. Either the versions are related by the documented rules of schema evolution, and programs generated from them, in Rust and TypeScript, read each other's messages; or there is a value which a program generated from one of them writes and which both the Rust and the TypeScript program generated from the other reject with an error. So an edit which is not one of the documented safe ones does break something.","all pairs of valid versions of schemas, all edits; the messages of all their types","tests can show that one unsafe change breaks one message; that every change outside the rules breaks a message, at any depth and in both languages, quantifies over schemas",["README.md 295-305","src/generate_rust.rs: write_schema 499-1408","src/generate_typescript.rs: write_schema 563-1327"])
p("C93","A failed run tells where and what is wrong","If loading or validating fails, printing the errors does not panic, and what is printed consists of the errors, in the order in which they were found, and white space between them. The text of each error in a file begins with [Error], the path of the file in which the offending import, declaration, field, type or symbol is, and the message, and shows the lines of that part in the file's text. Without colours, each thing that is wrong with a loaded file (cycles apart, for which the types are named) is found in the output with its file and message; the output is never empty.","all file systems, all contents of files, all errors","tests compare a few messages; that no error is lost when errors are merged, and that no listing panics, quantifies over contents",["src/error.rs: Error 14-40, throw 43-87","src/format.rs: code_str 10-20","src/error_merger.rs: merge_errors 4-34","src/validator.rs: validate 20-172","src/schema_loader.rs: load_schemas 43-265","src/main.rs: generate_code 136-141, main 394-400"])
p("C94","Rolling deployments never lose a message","Let each version of the schemas be valid and each single change obey the documented rules, and let a program be started only when every program which is running, and every message which is in flight or stored, is at most one version away from it. Whatever happens (programs of two versions side by side, updates one by one, rollbacks, messages kept, copied, dropped or reordered), every program which is running reads every message which is around, in Rust and in TypeScript. All programs can be replaced by the next or the previous version without ever running fewer of them. Waiting is necessary: programs two versions apart may reject each other's messages.","all histories of schemas, all interleavings of writes, updates and rollbacks, all contents","a statement about all histories: tests exercise a few pairs of versions",["README.md: 293-308","src/generate_rust.rs: 104-404","src/generate_typescript.rs: 124-467"])
p("C95","What a run prints, does and returns","The exit code of a run is 0 exactly if it did all that it was asked to do; then its last line on standard error is Done. (for generate and format). If something fails, nothing is done after the failure, the failure (and the reason given by the operating system) is printed to standard error, and the exit code is 1. Standard output has exactly the list of schemas (if asked for, and if the schemas are valid) or the completion script, and nothing else. Each file is announced before it is written. The names of shells are understood in upper and lower case. The program panics only if loading does.","all command lines, all file systems, all answers of the operating system, all outcomes of loading and validation","tests of the command line run a few scenarios; the order of effects and messages under all failures of the file system cannot be enumerated",["src/main.rs: generate_code 128-219, format_schema 222-281, shell_completion 284-308, entry 311-391, main 394-400","src/count.rs: count 3-9"])
p("C96","One-way compatibility","Programs generated from one version of the schemas can read whatever programs generated from another version write (getting the content, restricted to what they know) if, for all corresponding declarations, the reader's version insists on no more than the writer's version guarantees: fields of a struct which are required for the reader are required or asymmetric for the writer; fields of a choice which are required for the writer are required or asymmetric for the reader. If no struct became a choice or vice versa, this is exact: otherwise there is a message which all readers reject. The documented rules of schema evolution are this condition in both directions. The versions may be any number of changes apart.","all pairs of valid versions of schemas, all relations between their declarations, all messages, both languages on both sides","there are infinitely many pairs of schemas and messages; that a condition is exact needs a message for every violation",["README.md: 295-308, 605-625","src/generate_rust.rs: struct 517-974, choice 975-1408","src/generate_typescript.rs: write_schema 563-1327"])
p("C97","Syntax errors name what is there","Each message that something was expected says that it was expected at the end of the file exactly if the listed place is the end of the last token in the file, with only white space after it; otherwise it names the text in the source which is listed: words, symbols and paths as they are written, names without the dollar sign, numbers without leading zeros, comments by paragraph. What is there is never a token for which the stated expectation stands. A file with only white space is a valid schema; and tokens are never left over without another error.","all source texts, all errors of the parser, with and without colours","there are infinitely many wrong texts, and the place of an error depends on all of the text before it",["src/parser.rs: token_source_range 17-28, unexpected_token 53-88, parse 195-231","src/token.rs: Display 63-109"])
with open('/verif/properties.jsonl','w') as f:
    for x in P: f.write(json.dumps(x)+"\n")
print(len(P))
