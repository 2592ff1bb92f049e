import Verif.Spec.Report
import Verif.Spec.Tokens

/-!
# Specification: how a message names what the parser encountered

From the model this uses functions on strings only.
-/

namespace Typical

/-- How the text of a token in the source is shown in a message. -/
inductive ShownAs (T : CharTable) : Str → Str → Prop
  /-- Reserved words, symbols, names and paths: as they are written. -/
  | verbatim {text} : (∀ c, text.head? = some c → c ≠ '$' ∧ c ≠ '#' ∧ c.isDigit = false) → ShownAs T text text
  /-- A name with `$`: without it. -/
  | raw {text} : ShownAs T ('$' :: text) text
  /-- A number: the same number, in decimal digits, without leading zeros. -/
  | number {text shown : Str} : text ≠ [] → (∀ d ∈ text, d.isDigit = true) → shown ≠ [] → (∀ d ∈ shown, d.isDigit = true) →
      digitsValue shown = digitsValue text → (shown.head? = some '0' → shown = ['0']) → ShownAs T text shown
  /-- A comment: each paragraph on a line which begins with `# `; between two, a line with `#` only. -/
  | comment {text ls ps} : CommentText T text ls → Paragraphs ls ps →
      ShownAs T text (joinWith "#\n".toList (ps.map (fun p => "# ".toList ++ p ++ ['\n'])))

/-- The message about something which was expected, depending on what is at the range in the source. -/
inductive SaysExpected (T : CharTable) (P : Style) (source : Str) (what : Str) (r : SourceRange) (message : Str) : Prop
  /-- The range is at the end of the last token: the rest of the file is white space. -/
  | atEnd (before after : Str) : (¬ ∀ c ∈ source, T.isWhitespace c = true) → source = before ++ after →
      (∀ c ∈ after, T.isWhitespace c = true) → (∃ first text v, before = first ++ text ∧ Spells T text v) →
      r = ⟨utf8Len before, utf8Len before⟩ →
      message = "Expected ".toList ++ what ++ " at the end of the file.".toList → SaysExpected T P source what r message
  /-- The range is that of a text which is not empty. -/
  | encountered (before text after shown : Str) : source = before ++ text ++ after → text ≠ [] →
      r = ⟨utf8Len before, utf8Len (before ++ text)⟩ → ShownAs T text shown →
      message = "Expected ".toList ++ what ++ ", but encountered ".toList ++ P.code shown ++ ".".toList →
      SaysExpected T P source what r message

end Typical
