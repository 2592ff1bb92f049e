import Verif.Front.Tokenizer

/-!
# Model of `/repo/src/parser.rs`

`position` is an index into the tokens. The errors are collected in a list; each has the source range given to `listing`.
Two places of the code can index or subtract out of bounds: lines 315-317 and 803; they are the outcome `panic` here. (All
other indexings come directly after a check of the position.) Recursion is bounded by fuel; running out of
fuel is also the outcome `panic`, so the theorems which exclude it show that the fuel suffices. The depth of the stack
is not modelled.
-/

namespace Typical

/-- The errors: lines 53-88, 216-224, 283-292, 415-427, 541-549. The expectation is the text in the message. -/
inductive ParseErrKind
  | expected (what : String)
  | unexpected
  | duplicateImport (name : Identifier)
  | duplicateDeleted (index : Nat)
  | unnamedImport
  deriving DecidableEq

/-- An error and the source range given to `listing`. -/
structure ParseErr where
  kind : ParseErrKind
  sourceRange : SourceRange
  deriving DecidableEq

/-- The outcome of a parsing function: a panic; or `None` with the position and errors; or `Some`. -/
inductive PRes (α : Type)
  | panic
  | none (pos : Nat) (errors : List ParseErr)
  | some (value : α) (pos : Nat) (errors : List ParseErr)

/-- Early return (`?` and the `return $error_value` of the macros). -/
def PRes.bind {α β : Type} (r : PRes α) (k : α → Nat → List ParseErr → PRes β) : PRes β :=
  match r with
  | .panic => .panic
  | .none pos errors => .none pos errors
  | .some a pos errors => k a pos errors

/-- `token_source_range`: lines 17-28. -/
def tokenSourceRange (toks : List Token) (pos : Nat) : SourceRange :=
  match toks[pos]? with
  | some t => t.sourceRange
  | none =>
    match toks.getLast? with
    | none => ⟨0, 0⟩
    | some t => ⟨t.sourceRange.stop, t.sourceRange.stop⟩

/-- `span_tokens`: lines 33-49. -/
def spanTokens (toks : List Token) (start stop : Nat) : SourceRange :=
  if start = toks.length then tokenSourceRange toks start
  else if start = stop then
    ⟨(tokenSourceRange toks start).start, (tokenSourceRange toks start).start⟩
  else ⟨(tokenSourceRange toks start).start, (tokenSourceRange toks (stop - 1)).stop⟩

/-- `unexpected_token`: lines 53-88. -/
def unexpectedToken (toks : List Token) (pos : Nat) (what : String) : ParseErr :=
  ⟨.expected what, tokenSourceRange toks pos⟩

/-- `consume_token_0`: lines 93-137. -/
def consume (toks : List Token) (v : TokVariant) (what : String) (pos : Nat) (errors : List ParseErr) : PRes Unit :=
  match toks[pos]? with
  | some t => if t.variant = v then .some () (pos + 1) errors else .none pos (errors ++ [unexpectedToken toks pos what])
  | none => .none pos (errors ++ [unexpectedToken toks pos what])

/-- `consume_token_1` for `Identifier`: lines 142-192. -/
def consumeIdentifier (toks : List Token) (what : String) (pos : Nat) (errors : List ParseErr) : PRes Identifier :=
  match toks[pos]? with
  | some ⟨_, .identifier i⟩ => .some i (pos + 1) errors
  | _ => .none pos (errors ++ [unexpectedToken toks pos what])

/-- `consume_token_1` for `Integer`: lines 142-192. -/
def consumeInteger (toks : List Token) (what : String) (pos : Nat) (errors : List ParseErr) : PRes Nat :=
  match toks[pos]? with
  | some ⟨_, .integer n⟩ => .some n (pos + 1) errors
  | _ => .none pos (errors ++ [unexpectedToken toks pos what])

/-- `consume_token_1` for `Path`: lines 142-192. -/
def consumePath (toks : List Token) (what : String) (pos : Nat) (errors : List ParseErr) : PRes Str :=
  match toks[pos]? with
  | some ⟨_, .path p⟩ => .some p (pos + 1) errors
  | _ => .none pos (errors ++ [unexpectedToken toks pos what])

/-- The types which are one keyword: lines 741-798. -/
def keywordType? : TokVariant → Option TypeVariant
  | .bool => some .bool
  | .bytes => some .bytes
  | .f64 => some .f64
  | .s64 => some .s64
  | .string => some .string
  | .u64 => some .u64
  | .unit => some .unit
  | _ => none

/-- The variant of the token at a position. -/
def variantAt (toks : List Token) (pos : Nat) : Option TokVariant := (toks[pos]?).map Token.variant

/-- A type which is a name: lines 799-862. -/
def parseCustom (toks : List Token) (pos : Nat) (errors : List ParseErr) : PRes SchemaType :=
  if toks.length < 2 then .panic
  else if pos < toks.length - 2 ∧ variantAt toks (pos + 1) = some .dot then
    (consumeIdentifier toks "the name of an import" pos errors).bind fun import_ pos' errors =>
    (consumeIdentifier toks "a type" (pos' + 1) errors).bind fun name pos'' errors =>
    .some ⟨spanTokens toks pos pos'', .custom (some import_) name⟩ pos'' errors
  else
    (consumeIdentifier toks "a type" pos errors).bind fun name pos' errors =>
    .some ⟨spanTokens toks pos pos', .custom none name⟩ pos' errors

/-- `parse_type`: lines 704-863. -/
def parseType (toks : List Token) : Nat → Nat → List ParseErr → PRes SchemaType
  | 0, _, _ => .panic
  | fuel + 1, start, errors =>
    match variantAt toks start with
    | none => .none start (errors ++ [unexpectedToken toks start "a type"])
    | some .leftSquare =>
      (parseType toks fuel (start + 1) errors).bind fun inner pos errors =>
      (consume toks .rightSquare "`]`" pos errors).bind fun _ pos errors =>
      .some ⟨spanTokens toks start pos, .array inner.sourceRange inner.variant⟩ pos errors
    | some v =>
      match keywordType? v with
      | some ty => .some ⟨spanTokens toks start (start + 1), ty⟩ (start + 1) errors
      | none => parseCustom toks start errors

/-- The optional comment of a field or declaration: lines 304-312 and 584-592. -/
def parseComment (toks : List Token) (pos : Nat) : List Str × Nat :=
  match variantAt toks pos with
  | some (.comment ps) => (ps, pos + 1)
  | _ => ([], pos)

/-- The optional rule of a field: lines 595-613. -/
def parseRule (toks : List Token) (pos : Nat) : Rule × Nat :=
  match variantAt toks pos with
  | some .asymmetric => (.asymmetric, pos + 1)
  | some .optional => (.optional, pos + 1)
  | _ => (.required, pos)

/-- The optional type of a field: lines 627-665. -/
def parseFieldType (toks : List Token) (pos : Nat) (errors : List ParseErr) : PRes SchemaType :=
  if variantAt toks pos = some .colon then
    (consume toks .colon "`:`" pos errors).bind fun _ pos errors =>
    if variantAt toks pos = none then .none pos (errors ++ [unexpectedToken toks pos "a type"])
    else parseType toks (toks.length + 1) pos errors
  else .some ⟨spanTokens toks pos pos, .unit⟩ pos errors

/-- `parse_field`: lines 574-699. -/
def parseField (toks : List Token) (start : Nat) (errors : List ParseErr) : PRes Field :=
  let (comment, pos) := parseComment toks start
  let (rule, pos) := parseRule toks pos
  (consumeIdentifier toks "a field" pos errors).bind fun name pos errors =>
  (parseFieldType toks pos errors).bind fun type pos errors =>
  (consume toks .equals "`=`" pos errors).bind fun _ pos errors =>
  (consumeInteger toks "an index for the field" pos errors).bind fun index pos errors =>
  .some ⟨spanTokens toks start pos, comment, rule, name, type, index⟩ pos errors

/-- `Path::components`, the normal components of a path (on Unix): `/` separates components; empty ones and `.` do not
count. -/
def pathParts (p : Str) : List Str := (splitOn '/' p).filter (fun c => !c.isEmpty && c != ['.'])

/-- `Path::file_name`: the last component, unless it is `..`. -/
def fileName (p : Str) : Option Str :=
  match (pathParts p).getLast? with
  | none => none
  | some c => if c = ['.', '.'] then none else some c

/-- `Path::file_stem` of a file name: the part before the last dot, or all if there is no dot except possibly at
the start. -/
def stemOf (name : Str) : Str :=
  let after := (name.reverse.takeWhile (fun c => c != '.')).reverse
  let before := (name.reverse.dropWhile (fun c => c != '.')).reverse.dropLast
  if after.length = name.length then name else if before = [] then name else before

/-- `Path::file_stem`. -/
def fileStem (p : Str) : Option Str := (fileName p).map stemOf

/-- `parse_import`: lines 479-569. -/
def parseImport (T : CharTable) (toks : List Token) (start : Nat) (errors : List ParseErr) : PRes (Identifier × Import) :=
  (consume toks .import "`import`" start errors).bind fun _ pos errors =>
  (consumePath toks "the path of a file to import" pos errors).bind fun path pos errors =>
  if variantAt toks pos = some .as then
    (consume toks .as "`as`" pos errors).bind fun _ pos errors =>
    (consumeIdentifier toks "a name for the import" pos errors).bind fun name pos errors =>
    .some (name, ⟨spanTokens toks start pos, path, none⟩) pos errors
  else
    match fileStem path with
    | some stem => .some (Identifier.ofStr T stem, ⟨spanTokens toks start pos, path, none⟩) pos errors
    | none =>
      .some (Identifier.ofStr T ['\uFFFD'], ⟨spanTokens toks start pos, path, none⟩) pos
        (errors ++ [⟨.unnamedImport, spanTokens toks start pos⟩])

/-- Lexicographic order of strings (by scalar values, which is the order of the UTF-8 bytes). -/
def strBefore : Str → Str → Bool
  | _, [] => false
  | [], _ :: _ => true
  | c :: s, d :: t => if c.toNat < d.toNat then true else if c = d then strBefore s t else false

/-- `BTreeMap::insert` with identifiers as keys; the result tells whether the key was present. (The old key is kept and the
value replaced.) -/
def insertImport (name : Identifier) (imp : Import) : List (Identifier × Import) → List (Identifier × Import) × Bool
  | [] => ([(name, imp)], false)
  | (n, i) :: l =>
    if name.snakeCase = n.snakeCase then ((n, imp) :: l, true)
    else if strBefore name.snakeCase n.snakeCase then ((name, imp) :: (n, i) :: l, false)
    else
      let (l', present) := insertImport name imp l
      ((n, i) :: l', present)

/-- `BTreeSet::insert` for indices. -/
def insertIndex (n : Nat) : List Nat → List Nat × Bool
  | [] => ([n], false)
  | m :: l =>
    if n = m then (m :: l, true)
    else if n < m then (n :: m :: l, false)
    else
      let (l', present) := insertIndex n l
      (m :: l', present)

/-- The imports: lines 272-297. `None` never occurs. -/
def parseImports (T : CharTable) (toks : List Token) :
    Nat → List (Identifier × Import) → Nat → List ParseErr → PRes (List (Identifier × Import))
  | 0, _, _, _ => .panic
  | fuel + 1, imports, pos, errors =>
    if variantAt toks pos = some .import then
      match parseImport T toks pos errors with
      | .panic => .panic
      | .none pos errors => parseImports T toks fuel imports pos errors
      | .some (name, imp) pos errors =>
        let (imports, present) := insertImport name imp imports
        parseImports T toks fuel imports pos
          (if present then errors ++ [⟨.duplicateImport name, imp.sourceRange⟩] else errors)
    else .some imports pos errors

/-- The jump to the closing brace: lines 390-398. -/
def skipToCurly (toks : List Token) : Nat → Nat → Nat
  | 0, pos => pos
  | fuel + 1, pos =>
    match variantAt toks pos with
    | none => pos
    | some .rightCurly => pos
    | some _ => skipToCurly toks fuel (pos + 1)

/-- The fields of a declaration: lines 375-401. -/
def parseFields (toks : List Token) : Nat → List Field → Nat → List ParseErr → PRes (List Field)
  | 0, _, _, _ => .panic
  | fuel + 1, fields, pos, errors =>
    match variantAt toks pos with
    | none => .some fields pos errors
    | some .deleted => .some fields pos errors
    | some .rightCurly => .some fields pos errors
    | some _ =>
      match parseField toks pos errors with
      | .panic => .panic
      | .some field pos errors => parseFields toks fuel (fields ++ [field]) pos errors
      | .none pos errors => .some fields (skipToCurly toks toks.length pos) errors

/-- The loop over deleted indices: lines 409-431. -/
def parseIndices (toks : List Token) : Nat → List Nat → Nat → List ParseErr → PRes (List Nat)
  | 0, _, _, _ => .panic
  | fuel + 1, deleted, pos, errors =>
    match variantAt toks pos with
    | some (.integer n) =>
      let (deleted, present) := insertIndex n deleted
      parseIndices toks fuel deleted (pos + 1)
        (if present then errors ++ [⟨.duplicateDeleted n, tokenSourceRange toks pos⟩] else errors)
    | _ => .some deleted pos errors

/-- The deleted fields: lines 404-432. -/
def parseDeleted (toks : List Token) (pos : Nat) (errors : List ParseErr) : PRes (List Nat) :=
  if variantAt toks pos = some .deleted then parseIndices toks (toks.length + 1) [] (pos + 1) errors
  else .some [] pos errors

/-- The keyword of a declaration: lines 314-335. Indexing out of bounds panics. -/
def parseKeyword (toks : List Token) (pos : Nat) (errors : List ParseErr) : PRes DeclVariant :=
  match variantAt toks pos with
  | none => .panic
  | some .struct => .some .struct (pos + 1) errors
  | some .choice => .some .choice (pos + 1) errors
  | some _ => .none pos (errors ++ [unexpectedToken toks pos "a declaration"])

/-- One declaration: lines 301-465. `None` is the early return of the schema parsed so far. -/
def parseDeclaration (toks : List Token) (start : Nat) (errors : List ParseErr) : PRes Declaration :=
  let (comment, pos) := parseComment toks start
  (parseKeyword toks pos errors).bind fun keyword pos errors =>
  (consumeIdentifier toks (match keyword with | .struct => "a name for the struct" | .choice => "a name for the choice")
    pos errors).bind fun name pos errors =>
  (consume toks .leftCurly "`{`" pos errors).bind fun _ pos errors =>
  (parseFields toks (toks.length + 1) [] pos errors).bind fun fields pos errors =>
  (parseDeleted toks pos errors).bind fun deleted pos errors =>
  (consume toks .rightCurly "`}`" pos errors).bind fun _ pos errors =>
  .some ⟨spanTokens toks start pos, comment, keyword, name, fields, deleted⟩ pos errors

/-- The declarations: lines 300-466. `None` does not occur. -/
def parseDeclarations (toks : List Token) :
    Nat → List Declaration → Nat → List ParseErr → PRes (List Declaration)
  | 0, _, _, _ => .panic
  | fuel + 1, declarations, pos, errors =>
    if pos < toks.length then
      match parseDeclaration toks pos errors with
      | .panic => .panic
      | .none pos errors => .some declarations pos errors
      | .some d pos errors => parseDeclarations toks fuel (declarations ++ [d]) pos errors
    else .some declarations pos errors

/-- The comment of the schema: lines 246-269. -/
def parseSchemaComment (toks : List Token) : List Str × Nat :=
  match toks with
  | ⟨r, .comment ps⟩ :: ⟨r', v⟩ :: _ =>
    if v = .struct ∨ v = .choice then
      if r.stop + 1 < r'.start then (ps, 1) else ([], 0)
    else (ps, 1)
  | [⟨_, .comment ps⟩] => (ps, 1)
  | _ => ([], 0)

/-- `parse_schema`: lines 235-474. -/
def parseSchema (T : CharTable) (toks : List Token) : PRes Schema :=
  let (comment, pos) := parseSchemaComment toks
  (parseImports T toks (toks.length + 1) [] pos []).bind fun imports pos errors =>
  (parseDeclarations toks (toks.length + 1) [] pos errors).bind fun declarations pos errors =>
  .some ⟨comment, imports, declarations⟩ pos errors

/-- The result of `parse`. -/
inductive ParseResult
  | panic
  | ok (schema : Schema)
  | err (errors : List ParseErr)
  deriving DecidableEq

/-- `parse`: lines 195-231. -/
def parse (T : CharTable) (toks : List Token) : ParseResult :=
  match parseSchema T toks with
  | .panic => .panic
  | .none _ errors => .err errors
  | .some schema pos errors =>
    let errors :=
      if errors.isEmpty ∧ pos ≠ toks.length then errors ++ [⟨.unexpected, tokenSourceRange toks pos⟩] else errors
    if errors.isEmpty then .ok schema else .err errors

end Typical
