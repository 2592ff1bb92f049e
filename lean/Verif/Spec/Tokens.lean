import Verif.Front.Tokenizer

/-!
# Specification: the lexical grammar

Which texts spell which tokens, and how a source is divided into tokens and white space. Nothing here depends on how the
tokenizer works.
-/

namespace Typical

/-- White space is neither letter nor digit (true of all versions of Unicode). -/
def CharTable.SpaceApart (T : CharTable) : Prop :=
  ∀ c, T.isWhitespace c = true → T.isAlphabetic c = false ∧ T.isAlphanumeric c = false

/-- The characters a word continues with: letters, digits, underscores. -/
def CharTable.WordChar (T : CharTable) (c : Char) : Prop := T.isAlphanumeric c = true ∨ c = '_'

/-- The reserved words. -/
def keywordTable : List (String × TokVariant) :=
  [("as", .as), ("asymmetric", .asymmetric), ("Bool", .bool), ("Bytes", .bytes), ("choice", .choice),
    ("deleted", .deleted), ("F64", .f64), ("import", .import), ("optional", .optional), ("S64", .s64), ("String", .string),
    ("struct", .struct), ("U64", .u64), ("Unit", .unit)]

/-- The symbols. -/
def symbolTable : List (Char × TokVariant) :=
  [(':', .colon), ('.', .dot), ('=', .equals), ('{', .leftCurly), ('[', .leftSquare), ('}', .rightCurly),
    (']', .rightSquare)]

/-- `w` is a reserved word. -/
def IsKeyword (w : Str) : Prop := ∃ k v, (k, v) ∈ keywordTable ∧ w = k.toList

/-- The value of a decimal digit string, from the right. -/
def digitsValue : List Char → Nat
  | [] => 0
  | c :: s => (c.toNat - '0'.toNat) * 10 ^ s.length + digitsValue s

/-- `u` is `s` without white space at both ends. -/
def Trimmed (T : CharTable) (s u : Str) : Prop :=
  (∃ a b, s = a ++ u ++ b ∧ (∀ c ∈ a, T.isWhitespace c = true) ∧ (∀ c ∈ b, T.isWhitespace c = true)) ∧
    (∀ c, u.head? = some c → T.isWhitespace c = false) ∧ (∀ c, u.getLast? = some c → T.isWhitespace c = false)

/-- The text of a comment with the given lines: each line begins with `#`, and is followed by the next one after a line
break and possibly white space. -/
inductive CommentText (T : CharTable) : Str → List Str → Prop
  | last {l u} : '\n' ∉ l → Trimmed T l u → CommentText T ('#' :: l) [u]
  | more {l u b t us} : '\n' ∉ l → Trimmed T l u → (∀ c ∈ b, T.isWhitespace c = true ∧ c ≠ '\n') →
    CommentText T t us → CommentText T ('#' :: l ++ '\n' :: b ++ t) (u :: us)

/-- The paragraphs of a comment: maximal runs of nonempty lines, each joined by spaces. -/
inductive Paragraphs : List Str → List Str → Prop
  | nil : Paragraphs [] []
  | blank {ls ps} : Paragraphs ls ps → Paragraphs ([] :: ls) ps
  | run {run ls ps} : run ≠ [] → (∀ l ∈ run, l ≠ []) → (∀ l, ls.head? = some l → l = []) →
    Paragraphs ls ps → Paragraphs (run ++ ls) (joinWith [' '] run :: ps)

/-- The text spells the token. -/
inductive Spells (T : CharTable) : Str → TokVariant → Prop
  | symbol {c v} : (c, v) ∈ symbolTable → Spells T [c] v
  | keyword {k v} : (k, v) ∈ keywordTable → Spells T k.toList v
  /-- An identifier: a letter, then letters, digits and underscores; not a reserved word. -/
  | identifier {c w} : T.isAlphabetic c = true → (∀ d ∈ w, T.WordChar d) → ¬ IsKeyword (c :: w) →
    Spells T (c :: w) (.identifier (Identifier.ofStr T (c :: w)))
  /-- An identifier with `$`: a letter or digit, then letters, digits and underscores. -/
  | raw {c w} : T.isAlphanumeric c = true → c ≠ '_' → (∀ d ∈ w, T.WordChar d) →
    Spells T ('$' :: c :: w) (.identifier (Identifier.ofStr T (c :: w)))
  | integer {w} : w ≠ [] → (∀ d ∈ w, d.isDigit = true) → digitsValue w < 2 ^ 64 →
    Spells T w (.integer (digitsValue w))
  | path {p} : '\'' ∉ p → Spells T ('\'' :: p ++ ['\'']) (.path p)
  | comment {t ls ps} : CommentText T t ls → Paragraphs ls ps → Spells T t (.comment ps)

/-- A token cannot be directly followed by a text which would continue it. -/
def Ends (T : CharTable) (v : TokVariant) (text rest : Str) : Prop :=
  match v with
  | .comment _ =>
    -- The end of the source, or a line break not followed by another line of the comment.
    rest = [] ∨ ∃ b r, rest = '\n' :: b ++ r ∧ (∀ c ∈ b, T.isWhitespace c = true ∧ c ≠ '\n') ∧
      ∀ c, r.head? = some c → c ≠ '#' ∧ (T.isWhitespace c = true → c = '\n')
  | .integer _ => ∀ c, rest.head? = some c → c.isDigit = false
  | .path _ => True
  | _ => (∃ c, (c, v) ∈ symbolTable ∧ text = [c]) ∨ ∀ c, rest.head? = some c → ¬ T.WordChar c

/-- The source, which begins at the given offset, is divided into white space and the given tokens, in order. -/
inductive Lexes (T : CharTable) : Nat → Str → List Token → Prop
  | nil {i s} : (∀ c ∈ s, T.isWhitespace c = true) → Lexes T i s []
  | cons {i gap text rest v ts} : (∀ c ∈ gap, T.isWhitespace c = true) → text ≠ [] → Spells T text v →
    Ends T v text rest → Lexes T (i + utf8Len gap + utf8Len text) rest ts →
    Lexes T i (gap ++ text ++ rest)
      (⟨⟨i + utf8Len gap, i + utf8Len gap + utf8Len text⟩, v⟩ :: ts)

/-- The range denotes a part of the source (with ends between characters). -/
def InSource (s : Str) (r : SourceRange) : Prop :=
  ∃ a b c, s = a ++ b ++ c ∧ r.start = utf8Len a ∧ r.stop = utf8Len (a ++ b)

/-- A name which can be written as an identifier: a letter, then letters, digits and underscores, and not a reserved word. -/
def PlainName (T : CharTable) (w : Str) : Prop :=
  (∃ c v, w = c :: v ∧ T.isAlphabetic c = true ∧ ∀ d ∈ v, T.WordChar d) ∧ ¬ IsKeyword w

/-- The token can be written with spaces around it: it is not a comment, a name is a plain one, an integer has at most 64
bits, a path has no quote. -/
def Writable (T : CharTable) : TokVariant → Prop
  | .comment _ => False
  | .identifier i => PlainName T i.original ∧ i = Identifier.ofStr T i.original
  | .integer n => n < 2 ^ 64
  | .path p => '\'' ∉ p
  | _ => True

end Typical
