import Verif.Front.Identifier

/-!
# Specification: words of identifiers, assumptions about Unicode tables
-/

namespace Typical

/-- The tables agree with ASCII on ASCII characters (true of all versions of Unicode). -/
structure CharTable.Ascii (T : CharTable) : Prop where
  isUppercase : ∀ c : Char, c.toNat < 128 → T.isUppercase c = c.isUpper
  isAlphabetic : ∀ c : Char, c.toNat < 128 → T.isAlphabetic c = c.isAlpha
  isAlphanumeric : ∀ c : Char, c.toNat < 128 → T.isAlphanumeric c = c.isAlphanum
  isWhitespace : ∀ c : Char, c.toNat < 128 → T.isWhitespace c = (c == ' ' || (9 ≤ c.toNat && c.toNat ≤ 13))
  toUppercase : ∀ c : Char, c.toNat < 128 → T.toUppercase c = [c.toUpper]
  lowercase : ∀ s : Str, (∀ c ∈ s, c.toNat < 128) → T.lowercase s = s.map Char.toLower

/-- Conversion to lower case does not introduce separators and does not delete everything. -/
structure CharTable.Lawful (T : CharTable) : Prop where
  separator : ∀ s : Str, '_' ∉ s → '_' ∉ T.lowercase s
  nonempty : ∀ s : Str, s ≠ [] → T.lowercase s ≠ []

/-- A table which satisfies the assumptions: ASCII, other characters are letters without case. -/
def asciiTable : CharTable where
  isUppercase c := c.isUpper
  isAlphabetic c := c.isAlpha || 128 ≤ c.toNat
  isAlphanumeric c := c.isAlphanum || 128 ≤ c.toNat
  isWhitespace c := c == ' ' || (9 ≤ c.toNat && c.toNat ≤ 13)
  toUppercase c := [c.toUpper]
  lowercase s := s.map Char.toLower

/-- The decomposition of a name into words: an underscore or hyphen separates words and belongs to none, an
upper-case letter begins a word, and words are as long as possible. -/
inductive Words (T : CharTable) : Str → List Str → Prop
  /-- Nothing left. -/
  | nil : Words T [] []
  /-- A separator. -/
  | separator {c s ws} : c = '_' ∨ c = '-' → Words T s ws → Words T (c :: s) ws
  /-- A word: any character except separators, then characters which are neither separators nor upper case, up to the end or
  a separator or upper-case letter. -/
  | word {c w s ws} : c ≠ '_' → c ≠ '-' → (∀ x ∈ w, x ≠ '_' ∧ x ≠ '-' ∧ T.isUppercase x = false) →
    (∀ x s', s = x :: s' → x = '_' ∨ x = '-' ∨ T.isUppercase x = true) → Words T s ws →
    Words T (c :: w ++ s) ((c :: w) :: ws)

/-- Names of ASCII letters, digits, underscores and hyphens. -/
def AsciiName (s : Str) : Prop := ∀ c ∈ s, c.isAlphanum = true ∨ c = '_' ∨ c = '-'

end Typical
