# Formal model of Typical in Lean 4 — design

Typical (`/repo`) is a schema compiler: a Rust program which reads `.t` schema files and prints Rust and TypeScript code. What its
users run is (a) the compiler's front end (tokenizer, parser, loader, validator, formatter, `generate`, `format`) and (b) the
*generated* code: serialisers and deserialisers in two languages. Both are modelled.

## Trusted base

* Lean 4.33.0's kernel. Every theorem named in `MANIFEST.json` depends on at most the three standard axioms `propext`,
  `Classical.choice`, `Quot.sound` (checked with `#print axioms`; some need fewer). There are no axioms of our own, no incomplete
  proofs, no compiled evaluation (`decide +kernel` is used on closed terms only; the kernel evaluates these).
* The fidelity of the model to the sources: each definition in a model file cites the file and lines of `/repo` it models and states
  its simplifications. For the codec the cited lines are those of the generator which print the corresponding code; the model is a
  function of the schema's type, i.e. of all the code that the generator can print.
* The specifications in `lean/Verif/Spec/`, which do not use the model's helpers except data types (and, in `Spec/Loader`
  and `Spec/Driver`, the model's paths, which C40_namespace, C40_import_target, C40_read and C40_environment describe explicitly).
* The assumed behaviour of the libraries used by the code, listed under "Not modelled".

## Layout

* `lean/Verif/*.lean`: model of the generated code (`Varint`, `Types`, `Rust`, `RustEnc`, `TypeScript`, `Io`, `Depth`) and lemmas.
* `lean/Verif/Front/*.lean`: model of the compiler (`Identifier`, `Schema`, `Tokenizer`, `Parser`, `Loader`, `Validator`, `Modules`,
  `Names`, `Format`, `Driver`, `Listing`) and lemmas.
* `lean/Verif/Gen/*.lean`: the Rust code generator itself: syntax (`Ast`), generator (`RustGen`), printer (`Print`, `RustFile`), interpreter
  (`Sem`), and the proofs that the generated program does what the codec model does.
* `lean/Verif/TsGen/*.lean`: the same for the TypeScript code generator.
* `lean/Verif/Spec/*.lean`: specifications, independent of the algorithms of the models.
* `lean/Verif/Props/*.lean`: the property theorems `Cxx_…`, with examples showing that their hypotheses can be met.
* `tools/`: scripts which write `properties.jsonl` and `MANIFEST.json`, and look for duplicate names.
* `seeded/LOG.jsonl`: experiments with wrong programs.

## Modelling decisions

* **Wire types** (`Ty`, `CTy`, `Fields`) are the finite unfoldings of declarations (the validator rejects cyclic ones, C29; C30 shows
  that each declaration of a validated schema has exactly one unfolding, and that it is well-formed). Names are erased (C31); names in the
  generated code have their own model (`Front/Names`, `Front/Modules`: C39, C43, C47, C51–C53).
* **Values** are intrinsically typed: `Out t` / `In t` are the Lean counterparts of the generated `…Out` / `…In`
  types. A `Vec<()>` is represented by its length; `f64` by its bit pattern; a Rust `String` by its UTF-8 bytes
  with a validity proof. JavaScript numbers, `bigint`s and strings are represented by the same data (see "Not modelled").
* **Integers** are `UInt64`/`UInt8`/`Int64` with Rust's wrapping/shift semantics; sizes (`usize`) are `Nat`
  with an explicit hypothesis that the whole message's size is representable / allocatable. In the interpreter of `Gen/Sem` a `usize` sum or
  product of `2 ^ 64` or more has no result, so a theorem which says that an execution ends also says that nothing overflows.
* **Readers**: in `Rust.lean` byte lists. `Read::take(n)` is the sub-list of the first `n` bytes; bytes which the
  field decoder leaves unread stay in the stream, as in the generated code. Outcomes are
  `ok`, `UnexpectedEof`, `InvalidData`, `panic`, `hang` (the spinning `skip` loop) and `fuel` (an artefact of
  the model, proved unreachable by C12_loops_terminate). `Io.lean` replaces the byte lists by devices: schedules of calls which deliver
  chunks or errors, with `fill_buf`, `consume`, `read`, `take`, `read_exact`, `read_to_end` and `write_all` of the standard library. C54–C56
  connect the two.
* **The generated program.** `Rust.lean` models the generated functions as Lean functions on wire types. `Gen/` goes one step further: it
  models the generator as a function from schemas to syntax trees (an AST with just the constructs which the generator prints), the text of
  these trees, and an interpreter for them with environments, a stack of readers, `?`, `break`, `return` and panics, written from the Rust
  Reference. C67–C69 prove that the generated program, interpreted, agrees with the codec model; so all codec
  properties hold of it. The printer is validated (not proved) against the repository: the model's tokenizer, parser, loader, generator and
  printer, run on `/repo/integration_tests/types`, print `/repo/test_data/types.rs` byte for byte (`tools/textcheck/rust.sh`).
  This interpreter trusts the meaning of the runtime functions at the top of the file, which are modelled in `Varint.lean`. C84 removes this
  trust: `Gen/DevSem` executes these functions (the trees of `Gen/Runtime`) and lets the program read and write devices.
  There, `HangsD` means: no result for any fuel; and a buffer is unchanged after a failed `read_exact` (the generated code never looks at it).
* **The generated TypeScript program.** `TsGen/` does the same for TypeScript (C72–C76); there the functions at the top of the file
  (`varintSizeFromValue`, `serializeVarint`, `deserializeFieldHeader`, …) are syntax trees which are executed too. The interpreter has scopes with
  mutable variables, a heap of arrays and buffers, `break` and `return`, exceptions with `try`/`catch`, `in`, member
  access with `Object.prototype`, namespaces resolved by TypeScript's rules (a name is looked up in the enclosing namespaces from the inside
  out), and the built-ins which the code uses (`DataView`, `ArrayBuffer`, `TextEncoder`/`TextDecoder`, `BigInt`, `Number`, typed arrays).
  The printer's output for `/repo/integration_tests/types` is `/repo/test_data/types.ts` byte for byte (`tools/textcheck/ts.sh`).
  Simplifications: numbers are integers or bit patterns of doubles and integer arithmetic is exact (messages are smaller than 2^64 bytes by
  hypothesis; larger buffers than 2^53 do not exist); the properties of an `Out` struct must be present (possibly with the value `undefined`), as the printed
  types demand; strings are well-formed Unicode; namespaces without any declaration count as existing when names are resolved.
* **TypeScript** buffers are byte lists with views (offset, length); `DataView` and `TextDecoder` operations are functions on them which
  can throw `RangeError`.
* **Front end**: characters are Lean `Char`s; which characters are alphabetic, numeric, white space, upper or lower case, and case
  conversion are a parameter `CharTable`, with the hypothesis (where needed) that it agrees with ASCII. The file system is a parameter
  (canonical paths and contents). `textwrap::fill` is a parameter of the formatter.

## Plan per property

| id | model | method |
|---|---|---|
| C01–C04 | `Varint` on UInt64/UInt8/Int64 | case split on the nine ranges, reduction to `omega`; spec of the nine ranges in `Spec/Varint` |
| C05 | header functions | from C01 |
| C06, C07, C08, C22 | `serWith`/`atlas`/`deser` by recursion on types | mutual structural induction on types, list induction inside; `Spec/View` as the independent notion of content |
| C09, C10, C11 | struct decoder loop | invariant of the loop over well-formed fields; raw bytes for C11 |
| C12, C13 | decoder outcomes `hang`, `panic`, `fuel` | witness + induction that nothing else occurs |
| C14, C15 | choice decoder loop | induction on the chain |
| C16–C20 | `CanRead` relation, `SafeChange` relation (`Spec/Compat`) | induction on writer types; explicit witnesses; `Spec/Project` says what a reader sees |
| C21 | scalar encoders | range cases |
| C23 | size measure on `In` (`Spec/Footprint`) | induction on decoder |
| C24–C27, C46 | TypeScript encoder/decoder over views | agreement with the Rust model; witnesses; decreasing measure |
| C28–C32 | schema AST and validator | set/graph reasoning; DFS invariant; `Spec/Schema`, `Spec/Denote` |
| C33, C34 | tokenizer | loop invariants; lexical grammar in `Spec/Tokens` |
| C35, C48 | parser | soundness and completeness for the grammar in `Spec/Grammar` |
| C36, C37 | printer + tokenizer + parser | round-trip induction through C33, C48 |
| C38 | identifiers | list induction |
| C39, C43, C47 | namespaces, module tree, TypeScript scoping (`Spec/Modules`) | list induction, map lookup lemmas |
| C40, C41 | loader as worklist algorithm over an abstract file system | worklist invariant; witness |
| C42, C44 | `format`, `generate` | trace of effects: the planned effects up to the first which fails |
| C45 | README's format as wire trees (`Spec/Wire`) | induction on types |
| C49, C50 | listings, merging of errors | induction over lines; ranges yielded by tokenizer and parser |
| C51–C53 | names in generated code | keyword tables, scoping |
| C54–C56 | devices | simulation of the byte-list model |
| C57 | compatible versions of sets of schema files | induction over the denotation of the two versions, composed with C16/C25 |
| C58 | end to end: success of `generate` implies round trips in both languages | composition of C40, C28, C30, C06, C24, C25 |
| C59 | the validator's errors are exactly the violations, with file and range | induction over fields, declarations, files with the sets seen so far generalised |
| C60 | the loader's errors are exactly the problems of reachable files | loop invariant: errors so far = problems of the files processed so far |
| C61 | `Readable` (`Spec/Readable`): exact condition; documented rules exact for unchanged kinds | sufficiency as C16; necessity by constructing a minimal message which contains a rejected field, induction on types |
| C62 | `Depth` counts the active calls along the control flow of `Rust`; heights in `Spec/Depth` | loop invariants on the remaining bytes, induction on types; deep messages by construction; a family of inputs for tightness |
| C63 | `Tree.Cut` (`Spec/Cut`): what a prefix of a layout shows; decoder of `Rust` | mutual induction on types and lists, as for C06, with the last element cut off; uniqueness of the cut by induction on it |
| C64 | `Module.rustItems`, `rustRootItems`, `relativeStd` (`Front/Scopes`); scoping rules of Rust (`Spec/Scopes`) | characterise the children of each module of the tree by the files; shape of names |
| C65 | `Module.rustItems`, `Module.tsTypes`, field and variant names (`Front/Scopes`) | two names coincide in Pascal/camel case iff they differ in underscores before digits (functions both ways); suffixes end differently; distinctness invariant of the tree |
| C66 | decoders of `TypeScript` on prefixes of layouts | induction on the complete fields, with the header and view reads of the field which is cut off as the end of the loop (`TsCutLemmas`) |
| C67–C69 | syntax trees of the generated functions (`Gen/RustGen`), interpreter (`Gen/Sem`), values (`Spec/Values`) | induction on types with names; for each printed construct, the interpreter's result is that of the model codec; invariants for the struct and choice loops |
| C70, C71 | composition of loader, validator, generator, printer (`Gen/Print`, `Gen/RustFile`) and interpreter | C44, C40, C28 + C67–C69; C57 |
| C72, C73 | syntax trees of all functions of the generated TypeScript, including those at the top (`TsGen/Gen`, `TsGen/Runtime`), interpreter with a heap (`TsGen/Sem`), values (`Spec/JsValues`) | symbolic execution of each printed construct; induction on types with names; invariants for all loops; heap only grows |
| C74–C76 | composition of C72/C73 with C67/C68, C57, C40, C28, C44 and the printer (`TsGen/Print`) | as C70, C71 |
| C77, C78 | as C72, with a stack: a call for which there is not enough left throws a `RangeError` (`TsGen/Stack`) | simulation between the executions with and without the limit (`TsGen/Sim`), for functions without `try`; the static call graph of the generated code, induction on types (`TsGen/DepthProof`) |
| C79 | as C72, with arguments out of range: bitwise operators and setters of views reduce numbers as in ECMA-262 (`wrap`, `BitVec`) | execution of the generated code for a struct with one integer field, for every integer; C73 and C74 for reading |
| C80, C81 | syntax trees of the functions at the top of the generated Rust file (`Gen/Runtime`, also printed by `Gen/RustFile`), interpreter with Rust's arithmetic, overflow checks and word size as parameters (`Gen/RuntimeSem`), readers and writers as in C54–C56 | execution of each function on symbolic arguments; invariants for the loops of `skip` and `finish` |
| C82, C83 | executions of the generated programs in both languages (`WrittenBy` is a disjunction over languages) | C67, C68, C72, C73 with C57, C63, C66 |
| C84 | a second interpreter of the generated Rust (`Gen/DevSem`): the functions at the top are executed, readers and writers are devices (`Io.lean`), overflow checks on or off, 64-bit `usize` | simulation of the byte-list interpreter (`Gen/DevSim`, `DevMain`): a syntactic condition `Ex.Ok` (an error of a device is `?`-ed, caught and returned, or the result) is proved of every generated body (`DevOk`) |
| C85 | the items (structs and enums) of the generated file as trees which are printed (`Gen/Ast`: `Item`, `TypeEx`), types after name resolution and their values (`Spec/RustTypes`: `RT`, `HasType`) | both directions by induction on the schema's types and on values (`Gen/TypeProof`); the items of the program are in the printed text |
| C86 | a declarative type system for the syntax trees of the generated Rust (`Spec/RustTyping`: `HasTy`, written from the Rust Reference), the signatures as types and as text (`Spec/RustSignatures`) | by induction on the types of fields and on lists of fields (`Gen/TypeCheck`, `TypeCheckDecl`), then for the whole program (`Gen/TypeCheckProgram`) |
| C87 | the definitions of TypeScript types as trees (`TsGen/Types`, shown to have the text which the generator writes), types and their values (`Spec/TsTypes`) | by induction on values which hold messages (`TsGen/TypeProof`), and on derivations that a value has a type (`TsGen/TypeConverse`); a value with other properties as witness |
| C88 | what generators look at (`Spec/SameCode`); the models of C40, C42, C44, C70 and C76 | both generators by induction on schemas (`Gen/SameCode`, `TsGen/SameCode`); well-formedness (`Front/SameForms`); reloading files of which any were formatted (`Front/FormatReload`) |
| C89 | the executions of C84 (devices) and C72, C73 (TypeScript), two versions as for C57 | composition: what a device got is a prefix of the message (C84), which shows one content (C63) to any version (C57) |
| C90 | the states in which a run which writes files can be interrupted (`Spec/Driver`), the model of C42 | case distinction on the crash point; recovery by the reloading of C88; an empty file as witness |
| C91 | a conservative check for uses of moved places (`Spec/RustMoves`: `flow`, written from the Rust Reference) | symbolic evaluation of the check on the generator's output, by induction on types of fields and lists of fields (`Gen/Moves`, `MovesDecl`); its classification of values is sound for the typing rules of C86 (`Gen/MovesSound`) |
| C92 | as C57, C61, C82; versions whose types correspond (`Spec/Exact`) | necessity of `Readable`, with messages which JavaScript can represent, by induction on types; from wire types back to declarations (`Front/ExactLemmas`); the readers' outcome by C68, C73 |
| C93 | `throw`, `code_str`, the messages, and their merging (`Front/Report`); texts of the operating system are parameters | from C49 (listings), C50 (merging), C59 and C60 (which errors there are) and C40 (which files) |
| C94 | a transition system of running programs and messages (`Spec/Rollout`) over the generated programs of all versions | invariant: everything in use is at most one version apart; then C82, with symmetry and reflexivity of the documented rules at the level of schemas (C18_schemas) |
| C95 | all of main.rs after the command line is parsed, and count.rs: texts on standard output and standard error, effects, their order, exit codes (`Front/Main`) | a run is the execution of a plan up to the first effect which fails; agreement with the model of C42 and C44 by cases and induction over the files |
| C96 | nothing more; the programs of C67-C76, and what readers insist on and writers guarantee, for declarations (`Spec/OneWay`) | induction over the denotations of related declarations gives `CanRead` for wire types, then C16, C68, C73; exactness by the messages of C61 and C92 |
| C97 | the messages of `unexpected_token` with the token (`Front/Report`), `Display` for tokens (`Front/Tokenizer`); how a text is shown (`Spec/Messages`), what the expectations stand for (`Spec/Expectations`) | invariant of the parser: the range of such an error is that of a position (`Front/ParserRanges`); ranges of tokens are disjoint, so that the range determines the token; the parser stops at the end or after an error |

Properties beyond this table are described in `properties.jsonl` and in the header of the file under `Props/` which proves them.

## Where the English property is false of the code

In each case the negation is proved with a concrete witness, and a theorem gives the part which holds (suffix `_partial`
where it is the best positive counterpart of the claim).

| id | what happens | witness |
|---|---|---|
| C12 | a truncated unrecognised field makes the generated Rust `skip` spin forever | C12_hang_witness |
| C13 | the claimed payload size is reserved before reading: capacity overflow / allocation failure | C13_* |
| C23 | reserved (not filled) capacity is not bounded by the input; `[Unit]` elements cost no bytes | C23_reservation_unbounded, C23_units_unbounded |
| C25 | JavaScript's `TextDecoder` drops a byte order mark at the start of a string | C25_bom_witness |
| C26 | repeated struct fields, truncated payloads, truncated unknown fields: the two languages differ | C26_*_witness |
| C27 | a payload view is checked against the whole buffer only, not against its parent | C27_overread_witness |
| C32 | the README says indices need not be consecutive; the validator demands it (deleted indices counted) | C32_sparse_witness |
| C35 | a comment at the end of a nonempty file makes the parser index out of bounds | C35_panics, C35_panic_witness |
| C36, C37 | names which become keywords in snake case, names with non-ASCII case mappings | Props/Format |
| C38 | `foo_1` and `foo1` are different identifiers with the same camel/Pascal case | C38_digit_witness |
| C40 | a root file which is a link to another directory; file names like `...t` panic | C40_link_witness, C40_panic_witness |
| C41 | conflicting namespaces are never reported, one file is dropped | C41_never_reported, C41_dropped_witness |
| C47 | dotted paths in TypeScript are shadowed by inner namespaces | C47_shadowing_witness, C47_type_named_like_file_witness |
| C49 | a range that no component yields can panic or show nothing; non-ASCII text is not aligned | Props/Listing |
| C51 | `toString`, `valueOf`, … are found by `in` on every object | C51_inherited_witness |
| C52 | `_r#type` is not an identifier; `r#self` etc. are not raw identifiers | C52_rust_witness |
| C53 | a type or file named `error` shadows `Error` | C53_error_witness |
| C62 | the depth of recursion is not bounded by the schema if a choice has an optional field: one nested call per byte of input | C62_unbounded, C62_one_byte_per_call |
| C63 | truncation is not always detected: a message which is cut off can be accepted with shorter contents | C63_undetected_witness |
| C64 | a top-level file `io.t` or `std.t`, or `x/std.t` beside `x.t`: the generated Rust does not compile | C64_witness |
| C65 | types `v1` and `v_1` (or fields of a choice) are accepted, but defined twice in the generated code | C65_digit_witness |
| C66 | in TypeScript too, a message which is cut off can be accepted, without optional fields which follow | C66_undetected_witness |
| C55 | a device's own `UnexpectedEof` ends a struct or array; `Interrupted` in `skip` is not retried | C55_eof_witness, C55_interrupted_witness |
| C77 | `deserialize` takes the `RangeError` of a stack overflow (V8) for the end of a struct: an optional field of a valid message is lost silently | C77_overflow_witness |
| C79 | a `bigint` out of the range of its field is truncated silently (`-1n` for a `U64` is read as `127n`) | C79_u64_partial, C79_s64, C79_unchanged_iff_partial |
| C81 | on a 32-bit target the size in a field header is truncated to 32 bits, so the same bytes are read differently | C81_header_differs |
| C88 | formatting can merge the names of two types (`foo_1` and `foo1` both become `Foo1`), after which `generate` fails | last example in Props/SameCode |
| C90 | `format` overwrites files in place: a crash can leave an empty schema, for which `generate` succeeds | C90_witness |

## Modelled code

| file | modelled | not modelled |
|---|---|---|
| `generate_rust.rs` | all of the printed text, its syntax trees (including the functions at the top of the file) and their execution; names, keywords, module tree, `super` paths, names of items per scope, uses of `std` without `::` | lifetimes; type and move checking of the functions at the top of the file; the meaning of derives and attributes (they are printed, but not interpreted) |
| `generate_typescript.rs` | all of the printed text, its syntax trees (including the functions at the top of the file) and their execution; names, keywords, scoping of references and globals | type checking of function bodies; annotations of local variables (they are printed, but not interpreted) |
| `identifier.rs`, `token.rs`, `tokenizer.rs`, `parser.rs`, `schema.rs`, `validator.rs`, `schema_loader.rs` | all | the unexpected token or symbol in messages (a parameter) |
| `main.rs`, `count.rs` | all that happens after the command line is parsed | argument parsing and completion scripts (clap), failures of writing to standard output and standard error, the setting of colours |
| `error.rs`, `error_merger.rs`, `format.rs` | `listing`, `merge_errors`, `throw`, `Display` of errors, `code_str` | colours and texts of system errors (parameters) |

## Not modelled, or assumed

* `textwrap::fill` is an arbitrary function in C36/C37 (its required behaviour is stated as hypotheses).
* File system: does not change during loading; a failed write is taken to change nothing, except in C90, where writes are interrupted; names
  of files are UTF-8; Unix paths.
* Grapheme clusters: listings and the tokenizer's single-character error ranges work on characters here.
* Stack depth: the model's recursion does not overflow; C62 counts the nested calls of the Rust deserialisers (not those of
  serialisers, or of `Drop`). C77 and C78 are about a limited stack in TypeScript: overflow is a `RangeError` as in V8 (it is an `InternalError` in
  SpiderMonkey), built-ins need no stack. `Vec`/`String` growth other than the explicit reservations cannot fail in the model.
* `f64`: bit patterns; JavaScript engines may canonicalise NaNs.
* JavaScript: lengths up to 2^53 and sizes of `ArrayBuffer`s are not limited in the model; strings are well-formed Unicode.
* Devices deliver finitely many calls' worth of answers and then end.
* Performance and memory, except the size of decoded contents and the amounts reserved (C13, C23).
