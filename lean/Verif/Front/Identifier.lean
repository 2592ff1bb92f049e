/-!
# Model of `/repo/src/identifier.rs`

Strings are lists of characters. The Unicode tables of the Rust standard library are a parameter (`CharTable`), so
the theorems hold for every version of Unicode; the facts about the tables which some theorems need are stated
as hypotheses (`CharTable.Lawful`, `CharTable.Ascii`).
-/

namespace Typical

abbrev Str := List Char

/-- The functions of `char` and `str` which depend on Unicode tables: `char::is_uppercase`, `char::is_alphabetic`,
`char::is_alphanumeric`, `char::is_whitespace`, `char::to_uppercase`, `str::to_lowercase`. -/
structure CharTable where
  isUppercase : Char → Bool
  isAlphabetic : Char → Bool
  isAlphanumeric : Char → Bool
  isWhitespace : Char → Bool
  toUppercase : Char → Str
  lowercase : Str → Str

/-- `str::split` with a character as pattern: the parts between separators, at least one. -/
def splitOn (sep : Char) : Str → List Str
  | [] => [[]]
  | c :: s =>
    if c = sep then [] :: splitOn sep s
    else
      match splitOn sep s with
      | [] => [[c]]
      | w :: ws => (c :: w) :: ws

/-- `<[String]>::join` with a separator. -/
def joinWith (sep : Str) : List Str → Str
  | [] => []
  | [w] => w
  | w :: w' :: ws => w ++ sep ++ joinWith sep (w' :: ws)

/-- `split_words`: lines 132-153. -/
def splitWords (T : CharTable) (name : Str) : List Str :=
  let snaked := name.flatMap (fun c => if T.isUppercase c then ['_', c] else [c])
  ((splitOn '_' snaked).flatMap (splitOn '-')).filter (fun word => !word.isEmpty)

/-- `Identifier`: lines 20-23. Equality, order and hash (lines 25-49) are those of `snakeCase`: see `Identifier.same`. -/
structure Identifier where
  original : Str
  snakeCase : Str
  deriving DecidableEq

/-- `PartialEq::eq`: lines 25-29. -/
def Identifier.same (a b : Identifier) : Bool := a.snakeCase == b.snakeCase

/-- `From<&str>`: lines 51-62. -/
def Identifier.ofStr (T : CharTable) (s : Str) : Identifier :=
  ⟨s, joinWith ['_'] ((splitWords T s).map T.lowercase)⟩

/-- A word with its first character in upper case and the others in lower case: lines 93-100 and 112-120. -/
def capitalize (T : CharTable) : Str → Str
  | [] => []
  | c :: s => T.toUppercase c ++ T.lowercase s

/-- `camel_case`: lines 82-105. -/
def Identifier.camelCase (T : CharTable) (i : Identifier) : Str :=
  match splitWords T i.original with
  | [] => []
  | w :: ws => T.lowercase w ++ ws.flatMap (capitalize T)

/-- `pascal_case`: lines 108-123. -/
def Identifier.pascalCase (T : CharTable) (i : Identifier) : Str :=
  (splitWords T i.original).flatMap (capitalize T)

/-- `join`: lines 126-128. -/
def Identifier.join (T : CharTable) (a b : Identifier) : Identifier :=
  Identifier.ofStr T (a.original ++ ['_'] ++ b.original)

end Typical
