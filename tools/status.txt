C01 proved For all UInt64 values and all trailing bytes.
C02 proved Against an independent specification of the nine ranges (Spec/Varint).
C03 proved Prefix freedom, injectivity, canonicity up to 8 bytes, and the nine-byte counterexample.
C04 proved All Int64/UInt64.
C05 proved All indices up to 2^62-1, all sizes below 2^64.
C06 proved All well-formed types and messages whose size fits the memory limit; content is compared through an independent view.
C07 proved size() = number of bytes, serialise never panics.
C08 proved Equal bytes imply equal reader-side view; presence is never confused with a default.
C09 proved Any position in the input (arbitrary raw tail) and within messages.
C10 proved Any permutation of wire fields with distinct indices.
C11 proved Raw bytes: success implies a header with the index was met.
C12 partial The English claim is false of the code (hang witness proved); the partial theorem gives termination unless a truncated unknown field is met.
C13 partial The English claim is false of the code (panic witness proved); the partial theorem excludes panics when every claimed size is allocatable.
C14 proved
C15 proved
C16 proved
C17 proved
C18 proved
C19 proved
C20 proved
C21 proved
C22 proved
C45 proved The bytes are those of the README's format, specified independently as wire trees.
C23 proved Size of the decoded content; spare capacity reserved by with_capacity-style calls is excluded (C23_reservation_unbounded shows it cannot be bounded), and [Unit] is zero-sized (C23_units_unbounded).
C24 proved The order of the 'in' tests in choices is a separate model.
C25 proved For contents JavaScript can represent (no string beginning with a byte order mark, no 2^32 Units); C25_bom_witness shows the former is necessary.
C26 partial False as stated; agreement is proved for laid out contents without repeated struct fields, and witnesses show where the decoders differ.
C27 partial False as stated (C27_overread_witness); proved for all inputs which are accepted on their own.
C46 proved
C28 proved For all sets of loaded schemas, against an independent specification of well-formedness.
C29 proved Reports exactly the cycles, always terminates (no fuel needed beyond the number of types).
C30 proved
C31 proved
C32 proved The README's statement about sparse indices is contradicted by the code (witness); the actual guarantee is proved.
C38 proved Words, equality and case conversions; conversions for ASCII names, for every Unicode table which agrees with ASCII. The digit condition is necessary (C38_digit_witness).
C39 proved
C43 proved
C47 partial False as stated (two witnesses); C47_resolves_iff_partial gives the exact condition under which a reference resolves to its target.
C33 proved The lexical grammar is specified independently (Spec/Tokens.lean); for every Unicode table which agrees with ASCII.
C34 proved
C35 partial False as stated: every nonempty file which parses, followed by a comment, panics (C35_panics). C35_returns_partial shows that there are no other panics than with a comment at the end.
C48 proved
C36 proved textwrap::fill is a parameter; the exceptions named in the statement are shown to be necessary by witnesses.
C37 proved textwrap::fill is a parameter, with the stated condition.
C40 proved For all file systems; the exact set of files for distinct namespaces (see C41), and for files given by the user which are not links to other directories (both conditions shown necessary).
C41 partial False as stated: no run ever reports a conflict (C41_never_reported), and a file can be dropped silently (C41_dropped_witness). C40_all_reachable is the positive part.
C42 proved
C44 proved The texts of the generated code are parameters here.
C49 proved Ranges of the tokenizer, the parser and parsed schemas (those are the ones the loader and validator list); colours are a parameter.
C50 proved
C51 partial False as stated (C51_inherited_witness); C51_dispatch_iff_partial is the exact condition.
C52 partial False as stated for Rust (C52_rust_witness); the theorems give the exact conditions. Non-ASCII names are not covered.
C53 partial False as stated (C53_error_witness); proved when no file or declaration has the name of a built-in object.
C54 proved Readers are schedules of finitely many calls (data, errors), with the standard library's read_exact, read_to_end, take, fill_buf and consume modelled.
C55 partial False as stated (C55_eof_witness, C55_interrupted_witness); C55_errors_partial covers every other kind of error, at every point of failure.
C56 proved
C57 proved
C58 proved For messages within the memory limit and, for TypeScript readers, representable in JavaScript. The text of the generated code is not modelled (see DESIGN.md).
C59 proved
C60 proved
C61 proved For message sizes within the memory limit. The exact condition for a struct read as a choice is weaker than that of C16 (C61_canRead_witness).
C62 proved Counts calls of generated functions, not bytes of stack; Rust only.
C63 proved For message sizes within the memory limit. With unknown fields the deserialiser may not return (C12).
C64 partial False as stated: top-level files io.t/std.t and x/std.t beside x.t (C64_witness). C64_std_iff_partial is the exact condition; C64_prelude is unconditional.
C65 partial False as stated: v1 and v_1 (C65_digit_witness). The theorems give the exact condition for each kind of scope; C65_rust_fields is unconditional.
C66 proved The message is given as an ArrayBuffer (a view of a larger buffer is C27); what JavaScript cannot represent is excluded (JsSafe).
C67 proved Names must not collide (Accepted.names; C67_names gives a sufficient condition, C65 the exact ones). The runtime functions at the top of the file are taken to have the meaning modelled in Varint.lean; the rest of the generated code is executed by an interpreter.
C68 proved As C67. The outcome is compared with the model decoder, which C06-C23, C54, C61-C63 describe.
C69 proved As C67.
C70 proved As C67. The correspondence of printed text and syntax is by construction of the printer, which reproduces test_data/types.rs byte for byte.
C71 proved As C67.
C72 proved C72_values: which contents values can have (all messages, unless a field of a choice is named like an inherited property, C72_inherited). Names must not collide (TsAccepted.names; C72_names gives a sufficient condition, C47/C51/C53/C65 the exact ones). All functions at the top of the file are executed too; built-ins (DataView, TextEncoder, BigInt, ...) have the meaning in TsGen/Sem.lean.
C73 proved As C72. The outcome is compared with the model decoder, which C24-C27, C46, C66 describe. The stack of the JavaScript engine is unlimited here; C77 is about its limit.
C74 proved As C67 and C72. Contents must be JsSafe for TypeScript readers (C25).
C75 proved As C72.
C76 proved As C72. The correspondence of printed text and syntax is by construction of the printer, which reproduces test_data/types.ts byte for byte.
C77 partial False for deserialize: a struct's loop takes the RangeError of a stack overflow for the end of the input, so that an optional field can be lost silently (C77_overflow_witness). Proved: size and serialize (all schemas), deserialize never throws, and for each call a large enough stack makes no difference. Overflow is a RangeError (as in V8); built-ins are taken to need no stack.
C78 proved The part about optional fields is proved for one schema, for all stack sizes and costs of calls (C78_unbounded_witness). Overflow is a RangeError (as in V8); built-ins are taken to need no stack.
C79 partial False: proved for struct { x: U64 } and struct { x: S64 } that exactly the integers in range are read back unchanged and all others are changed without an error, with the exact result (U64: the last 64 bits, and only the last 7 bits of a negative integer; S64: 63 bits). For U64, integers below -2^52 are not covered (floating-point rounding is not modelled).
C80 proved The code itself (syntax trees whose printed text is the generated text, C80_text) is executed with Rust's arithmetic.
C81 partial False: deserialize_field_header truncates the size to usize, so a header with the size 2^32+1 is read as one with the size 1 on a 32-bit target. Proved for all other functions, and for headers whose size fits.
C82 proved All four combinations of languages; TypeScript readers for contents without byte order marks at the start of strings (see C25).
C83 proved At the level of executions of the generated programs; C63 and C66 are about the codecs.
C84 proved 64-bit targets, with or without overflow checks. Failing readers: errors other than UnexpectedEof and Interrupted, which std itself treats specially.
C85 proved Members of structs and payloads of variants, resolved through the generated modules; the printed text of the items is in the file. Serializing: unless the message has 2^64 bytes or more.
C86 proved Rules for places include mutability and moves out of borrows, not use after move or lifetimes; the functions at the top of the file are covered by their signatures only. Local variables named after fields are assumed to be legal identifiers (C52).
C87 proved The condition on other properties is needed (C87_other_properties). Values are finite; strings are without lone surrogates; atlas types are printed and defined, their values are not considered.
C88 proved The condition on names is needed (witness: foo_1 and foo1). An interruption in the middle of the write of one file is not modelled. The fill of textwrap is a parameter, as for C36.
C89 proved Composition of C57, C63, C66, C67, C82, C83 and C84, on targets of 64 bits.
C90 partial False as stated (C90_witness). Proved: C90_one_file_partial and C90_recovery. std::fs::write is modelled as emptying the file and then writing the text from its beginning; a crash of the operating system (which may lose or reorder earlier writes) is not modelled.
C91 proved The check is conservative and syntax-directed; that what it takes to be copied has a Copy type is proved against the typing rules of C86 (C91_copied). Borrows (overlapping references, lifetimes) are not checked; the functions at the top of the file are not covered.
C92 proved The message exists whatever its size; that readers reject it is proved for sizes below the limits of the other theorems (8 * size < 2^64). Conversions between structs and choices are outside the hypothesis (see C61 for the exact condition on wire types there).
C93 proved The texts of system errors, the unexpected symbol or token, and the names of types on cycles are parameters of the model (Wording); the theorems hold for all of them (C93_syntax assumes that these messages end with a full stop, as they do).
C94 proved Sizes of messages are limited as in C82. Versions without a successor relation for a declaration (removed types) impose nothing.
C95 proved The parsing of the command line and the completion scripts are those of clap and not modelled; failures of writing to standard output or standard error are not modelled; paths given by the user are shown in canonical form. C95_driver_* shows that this model and the model used for C42 and C44 agree.
C96 proved For TypeScript readers no choice became a struct (such a message can have the same field several times), and for exactness no struct became a choice or vice versa. Exactness supposes that each choice of the writer's version has a required field (others have no messages, C61_unproductive). Bounds on sizes and on strings with byte order marks as in C82.
C97 proved The Unicode tables are parameters which agree with ASCII, as in C33. The expectation 'a type' stands for a name: after the name of an import, Bool is reported as not being a type (C97_type_witness).
