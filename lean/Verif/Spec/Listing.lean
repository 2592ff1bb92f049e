import Verif.Spec.Tokens
import Verif.Front.Listing

/-!
# Specification: listings of source ranges

Which lines of a source a listing shows, and which characters of them it highlights. From the model this uses `Colors` and
functions on strings (`repeated`, `padLeft`, `showNat`, `joinWith`).
-/

namespace Typical

/-- `line` is the line with this number (from 1) of the source, after the text `before`. -/
structure IsLine (source : Str) (number : Nat) (before line : Str) : Prop where
  split : ∃ after, source = before ++ line ++ after ∧ (after = [] ∨ after.head? = some '\n')
  begins : before = [] ∨ before.getLast? = some '\n'
  whole : '\n' ∉ line
  number : number = before.count '\n' + 1

/-- The range touches the line which starts at this offset: it begins before the end of the line (or just there) and ends
after its beginning. -/
def Touches (r : SourceRange) (before line : Str) : Prop :=
  utf8Len before < r.stop ∧ r.start ≤ utf8Len before + utf8Len line

/-- A shown line in three parts, of which the second is highlighted. -/
structure Shown where
  number : Nat
  before : Str
  marked : Str
  after : Str

/-- A character is highlighted iff it is in the range, unless it belongs to the white space at the beginning of a line which
begins in the range. White space at the end of a line is not shown. -/
structure Shows (T : CharTable) (source : Str) (r : SourceRange) (sh : Shown) (pre line : Str) : Prop where
  isLine : IsLine source sh.number pre line
  touches : Touches r pre line
  text : ∃ blank, line = sh.before ++ sh.marked ++ sh.after ++ blank ∧ (∀ c ∈ blank, T.isWhitespace c = true) ∧
    ∀ c, (sh.before ++ sh.marked ++ sh.after).getLast? = some c → T.isWhitespace c = false
  marked : ∀ x c y, sh.before ++ sh.marked ++ sh.after = x ++ c :: y →
    ((sh.before.length ≤ x.length ∧ x.length < (sh.before ++ sh.marked).length) ↔
      (r.start ≤ utf8Len pre + utf8Len x ∧ utf8Len pre + utf8Len x < r.stop ∧
        (utf8Len pre < r.start ∨ ∃ d ∈ x ++ [c], T.isWhitespace d = false)))

/-- The text of a shown line; without colours the highlighted part is overlined in a line below (as many marks as bytes). -/
def Shown.render (C : Colors) (gutter : Nat) (last : Bool) (sh : Shown) : Str :=
  C.blueBold (padLeft gutter (showNat sh.number) ++ [' ', '\u2502', ' ']) ++ sh.before ++ C.red sh.marked ++ sh.after ++
    if C.on then []
    else
      '\n' :: repeated gutter ' ' ++ [' ', if last then ' ' else '\u250a'] ++
        if sh.marked = [] then [] else [' '] ++ repeated (utf8Len sh.before) ' ' ++ repeated (utf8Len sh.marked) '\u203e'

/-- The texts of all shown lines. -/
def renderAll (C : Colors) (gutter : Nat) : List Shown → List Str
  | [] => []
  | [sh] => [sh.render C gutter true]
  | sh :: sh' :: rest => sh.render C gutter false :: renderAll C gutter (sh' :: rest)

/-- The range is empty, or contains a visible character in the last line it touches. -/
def EndsVisibly (T : CharTable) (source : Str) (r : SourceRange) : Prop :=
  r.start = r.stop ∨ ∃ x c y z, source = x ++ c :: y ++ z ∧ r.start ≤ utf8Len x ∧ r.stop = utf8Len (x ++ c :: y) ∧
    T.isWhitespace c = false ∧ '\n' ∉ y

/-- The source ranges in a type, without its own. -/
def TypeVariant.ranges : TypeVariant → List SourceRange
  | .array r inner => r :: inner.ranges
  | _ => []

/-- All source ranges in a type. -/
def SchemaType.ranges (t : SchemaType) : List SourceRange := t.sourceRange :: t.variant.ranges

/-- All source ranges in a field. -/
def Field.ranges (f : Field) : List SourceRange := f.sourceRange :: f.type.ranges

/-- All source ranges in a declaration. -/
def Declaration.ranges (d : Declaration) : List SourceRange := d.sourceRange :: d.fields.flatMap Field.ranges

/-- All source ranges in a schema. -/
def Schema.ranges (s : Schema) : List SourceRange :=
  s.imports.map (fun p => p.2.sourceRange) ++ s.declarations.flatMap Declaration.ranges

/-- The text consists of these texts, in this order, with only white space before, between and after them. -/
inductive InOrder (T : CharTable) : List Str → Str → Prop
  | nil {gap} : (∀ c ∈ gap, T.isWhitespace c = true) → InOrder T [] gap
  | cons {gap t ts s} : (∀ c ∈ gap, T.isWhitespace c = true) → InOrder T ts s → InOrder T (t :: ts) (gap ++ t ++ s)

end Typical
