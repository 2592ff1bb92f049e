import Verif.Front.Schema

/-!
# Model of `/repo/src/token.rs` and `/repo/src/tokenizer.rs`

The source is a list of characters. Offsets are in bytes of its UTF-8 encoding, as in the code. `char_indices().peekable()`
is the offset of the next character and the remaining characters.
-/

namespace Typical

/-- `Variant`: token.rs lines 35-61. A path is the literal string between the quotes. -/
inductive TokVariant
  | as
  | asymmetric
  | bool
  | bytes
  | choice
  | colon
  | comment (paragraphs : List Str)
  | deleted
  | dot
  | equals
  | f64
  | identifier (name : Identifier)
  | import
  | integer (value : Nat)
  | leftCurly
  | leftSquare
  | optional
  | path (path : Str)
  | rightCurly
  | rightSquare
  | s64
  | string
  | struct
  | u64
  | unit
  deriving DecidableEq

/-- `Token`: token.rs lines 28-32. -/
structure Token where
  sourceRange : SourceRange
  variant : TokVariant
  deriving DecidableEq

/-- The messages of tokenizer.rs lines 183, 193, 233, 264 and 372. -/
inductive LexErrKind
  | emptyIdentifier
  | underscore
  | integerTooLarge
  | unterminatedPath
  | unexpectedSymbol
  deriving DecidableEq

/-- An error with the source range given to `listing`. (The text of the message, with the grapheme cluster of lines
355-369, is not modelled.) -/
structure LexErr where
  kind : LexErrKind
  sourceRange : SourceRange
  deriving DecidableEq

/-- `str::len`: the number of bytes of the UTF-8 encoding. -/
def utf8Len : Str → Nat
  | [] => 0
  | c :: s => c.utf8Size + utf8Len s

/-- `str::trim`. -/
def trim (T : CharTable) (s : Str) : Str :=
  ((s.dropWhile T.isWhitespace).reverse.dropWhile T.isWhitespace).reverse

/-- The symbols: tokenizer.rs lines 37-99. -/
def symbol? (c : Char) : Option TokVariant :=
  if c = ':' then some .colon
  else if c = '.' then some .dot
  else if c = '=' then some .equals
  else if c = '{' then some .leftCurly
  else if c = '[' then some .leftSquare
  else if c = '}' then some .rightCurly
  else if c = ']' then some .rightSquare
  else none

/-- The keywords: token.rs lines 10-23, tokenizer.rs lines 116-185. -/
def keyword? (s : Str) : Option TokVariant :=
  if s = "as".toList then some .as
  else if s = "asymmetric".toList then some .asymmetric
  else if s = "Bool".toList then some .bool
  else if s = "Bytes".toList then some .bytes
  else if s = "choice".toList then some .choice
  else if s = "deleted".toList then some .deleted
  else if s = "F64".toList then some .f64
  else if s = "import".toList then some .import
  else if s = "optional".toList then some .optional
  else if s = "S64".toList then some .s64
  else if s = "String".toList then some .string
  else if s = "struct".toList then some .struct
  else if s = "U64".toList then some .u64
  else if s = "Unit".toList then some .unit
  else none

/-- The value of a decimal numeral (`str::parse::<usize>` before the check for overflow). -/
def decimal (s : Str) : Nat :=
  s.foldl (fun n c => 10 * n + (c.toNat - 48)) 0

/-- One iteration of the loop over lines: tokenizer.rs lines 319-335. -/
def paragraphStep (st : List Str × Str) (line : Str) : List Str × Str :=
  if line.isEmpty && !st.2.isEmpty then (st.1 ++ [st.2], [])
  else if !line.isEmpty then (st.1, (if !st.2.isEmpty then st.2 ++ [' '] else st.2) ++ line)
  else st

/-- From lines to paragraphs: tokenizer.rs lines 316-339. -/
def paragraphs (lines : List Str) : List Str :=
  let st := lines.foldl paragraphStep ([], [])
  if !st.2.isEmpty then st.1 ++ [st.2] else st.1

/-- What the loop of tokenizer.rs lines 295-314 leaves: the lines, the end of the last line, and the state of the iterator. -/
structure CommentScan where
  lines : List Str
  lineEnd : Nat
  pos : Nat
  rest : Str

/-- The loop of tokenizer.rs lines 295-314, from just after a `#`. The fuel bounds the number of lines. -/
def scanComment (T : CharTable) : Nat → Nat → Str → CommentScan
  | 0, pos, s => ⟨[], pos, pos, s⟩
  | fuel + 1, pos, s =>
    let line := s.takeWhile (fun d => d != '\n')
    let lineEnd := pos + utf8Len line
    match s.dropWhile (fun d => d != '\n') with
    | [] => ⟨[trim T line], lineEnd, lineEnd, []⟩
    | _ :: r =>
      let blank := r.takeWhile (fun d => T.isWhitespace d && d != '\n')
      match r.dropWhile (fun d => T.isWhitespace d && d != '\n') with
      | [] => ⟨[trim T line], lineEnd, lineEnd + 1 + utf8Len blank, []⟩
      | c :: r' =>
        if c = '#' then
          let more := scanComment T fuel (lineEnd + 1 + utf8Len blank + 1) r'
          { more with lines := trim T line :: more.lines }
        else ⟨[trim T line], lineEnd, lineEnd + 1 + utf8Len blank, c :: r'⟩

/-- What one iteration of the main loop pushes, and the state of the iterator after it. -/
structure LexResult where
  token : Option Token
  errors : List LexErr
  pos : Nat
  rest : Str

/-- Identifiers and keywords: tokenizer.rs lines 104-212. -/
def lexWord (T : CharTable) (i : Nat) (c : Char) (s : Str) : LexResult :=
  let tail := s.takeWhile (fun d => T.isAlphanumeric d || d == '_')
  let rest := s.dropWhile (fun d => T.isAlphanumeric d || d == '_')
  let stop := i + utf8Len (c :: tail)
  match keyword? (c :: tail) with
  | some v => ⟨some ⟨⟨i, stop⟩, v⟩, [], stop, rest⟩
  | none =>
    let name := if c = '$' then tail else c :: tail
    let e1 : List LexErr := if name.isEmpty then [⟨.emptyIdentifier, ⟨i, stop⟩⟩] else []
    let e2 : List LexErr := if name.head? = some '_' then [⟨.underscore, ⟨i, stop⟩⟩] else []
    ⟨some ⟨⟨i, stop⟩, .identifier (Identifier.ofStr T name)⟩, e1 ++ e2, stop, rest⟩

/-- Integers: tokenizer.rs lines 216-248 (`usize` has 64 bits). -/
def lexInteger (i : Nat) (c : Char) (s : Str) : LexResult :=
  let tail := s.takeWhile Char.isDigit
  let rest := s.dropWhile Char.isDigit
  let stop := i + utf8Len (c :: tail)
  if decimal (c :: tail) < 2 ^ 64 then ⟨some ⟨⟨i, stop⟩, .integer (decimal (c :: tail))⟩, [], stop, rest⟩
  else ⟨none, [⟨.integerTooLarge, ⟨i, stop⟩⟩], stop, rest⟩

/-- Paths: tokenizer.rs lines 252-287. -/
def lexPath (i : Nat) (s : Str) : LexResult :=
  let body := s.takeWhile (fun d => d != '\'')
  match s.dropWhile (fun d => d != '\'') with
  | [] => ⟨none, [⟨.unterminatedPath, ⟨i, i + 1⟩⟩], i + 1 + utf8Len s, []⟩
  | _ :: rest =>
    let stop := i + 1 + utf8Len body
    ⟨some ⟨⟨i, stop + 1⟩, .path body⟩, [], stop + 1, rest⟩

/-- Comments: tokenizer.rs lines 290-348. -/
def lexComment (T : CharTable) (i : Nat) (s : Str) : LexResult :=
  let scan := scanComment T (s.length + 1) (i + 1) s
  ⟨some ⟨⟨i, scan.lineEnd⟩, .comment (paragraphs scan.lines)⟩, [], scan.pos, scan.rest⟩

/-- One iteration of the main loop of `tokenize`, for the character `c` at offset `i` followed by `s`: tokenizer.rs lines
33-380. -/
def lexStep (T : CharTable) (i : Nat) (c : Char) (s : Str) : LexResult :=
  match symbol? c with
  | some v => ⟨some ⟨⟨i, i + 1⟩, v⟩, [], i + 1, s⟩
  | none =>
    if T.isAlphabetic c || c == '_' || c == '$' then lexWord T i c s
    else if c.isDigit then lexInteger i c s
    else if c = '\'' then lexPath i s
    else if c = '#' then lexComment T i s
    else if T.isWhitespace c then ⟨none, [], i + c.utf8Size, s⟩
    else ⟨none, [⟨.unexpectedSymbol, ⟨i, i⟩⟩], i + c.utf8Size, s⟩

/-- The main loop: tokenizer.rs lines 33-380. The fuel is the number of remaining characters. -/
def lexLoop (T : CharTable) : Nat → Nat → Str → List Token × List LexErr
  | _, _, [] => ([], [])
  | 0, _, _ :: _ => ([], [])
  | fuel + 1, i, c :: s =>
    let r := lexStep T i c s
    let more := lexLoop T fuel r.pos r.rest
    (r.token.toList ++ more.1, r.errors ++ more.2)

/-- `tokenize`: tokenizer.rs lines 21-389. -/
def tokenize (T : CharTable) (s : Str) : Except (List LexErr) (List Token) :=
  let r := lexLoop T s.length 0 s
  if r.2.isEmpty then .ok r.1 else .error r.2

/-- `Display` for `usize`: decimal digits. The fuel bounds the number of digits. -/
def showNatAux : Nat → Nat → Str
  | 0, _ => []
  | fuel + 1, n =>
    (if n < 10 then [] else showNatAux fuel (n / 10)) ++ [Char.ofNat (48 + n % 10)]

/-- `Display` for `usize`. -/
def showNat (n : Nat) : Str := showNatAux (n + 1) n

/-- `Display` for `Variant`: token.rs lines 69-109. -/
def TokVariant.show : TokVariant → Str
  | .as => "as".toList
  | .asymmetric => "asymmetric".toList
  | .bool => "Bool".toList
  | .bytes => "Bytes".toList
  | .choice => "choice".toList
  | .colon => [':']
  | .comment ps => joinWith "#\n".toList (ps.map (fun p => "# ".toList ++ p ++ ['\n']))
  | .deleted => "deleted".toList
  | .dot => ['.']
  | .equals => ['=']
  | .f64 => "F64".toList
  | .identifier i => i.original
  | .import => "import".toList
  | .integer n => showNat n
  | .leftCurly => ['{']
  | .leftSquare => ['[']
  | .optional => "optional".toList
  | .path p => '\'' :: p ++ ['\'']
  | .rightCurly => ['}']
  | .rightSquare => [']']
  | .s64 => "S64".toList
  | .string => "String".toList
  | .struct => "struct".toList
  | .u64 => "U64".toList
  | .unit => "Unit".toList

end Typical
