import Verif.Front.Tokenizer

/-!
# Model of `listing` and of `merge_errors`: `/repo/src/error.rs` lines 99-206, `/repo/src/error_merger.rs` lines 4-34

Slices of strings are by bytes and panic if an end is not between characters or if the ends are in the wrong order; `none` is
a panic. The colours are parameters: whether they are used, and the escape sequences put around a text.
-/

namespace Typical

/-- `str::trim_end`. -/
def trimEnd (T : CharTable) (s : Str) : Str := (s.reverse.dropWhile T.isWhitespace).reverse

/-- `str::find` with a predicate: the offset of the first character which satisfies it. -/
def findChar (p : Char → Bool) : Str → Option Nat
  | [] => none
  | c :: s => if p c then some 0 else (findChar p s).map (· + c.utf8Size)

/-- `str::split_at`: `none` if the offset is not between characters. -/
def splitAtByte : Str → Nat → Option (Str × Str)
  | s, 0 => some ([], s)
  | [], _ + 1 => none
  | c :: s, n + 1 => if c.utf8Size ≤ n + 1 then (splitAtByte s (n + 1 - c.utf8Size)).map (fun p => (c :: p.1, p.2)) else none

/-- `&s[start..stop]`. -/
def slice (s : Str) (start stop : Nat) : Option Str :=
  if start ≤ stop then (splitAtByte s stop).bind (fun p => (splitAtByte p.1 start).map Prod.snd) else none

/-- An element of `lines`: the number, the trimmed line, and the section to be highlighted. -/
structure ListedLine where
  number : Nat
  line : Str
  start : Nat
  stop : Nat

/-- The highlighted section of a line: lines 128-142. -/
def listedSection (T : CharTable) (r : SourceRange) (lineStart : Nat) (trimmed : Str) : Nat × Nat :=
  if r.start > lineStart then (min (r.start - lineStart) (utf8Len trimmed), min (r.stop - lineStart) (utf8Len trimmed))
  else
    let stop := min (r.stop - lineStart) (utf8Len trimmed)
    ((findChar (fun c => !T.isWhitespace c) trimmed).getD stop, stop)

/-- The loop over the lines: lines 107-151. `i` is the number of lines before, `pos` the offset of the next line. -/
def listedLines (T : CharTable) (r : SourceRange) : Nat → Nat → List Str → List ListedLine
  | _, _, [] => []
  | i, pos, line :: rest =>
    if pos ≥ r.stop then []
    else if pos + (utf8Len line + 1) ≤ r.start then listedLines T r (i + 1) (pos + (utf8Len line + 1)) rest
    else
      let sec := listedSection T r pos (trimEnd T line)
      ⟨i + 1, trimEnd T line, sec.1, sec.2⟩ :: listedLines T r (i + 1) (pos + (utf8Len line + 1)) rest

/-- The colours: whether they are used (`SHOULD_COLORIZE`), `.blue().bold()` and `.red()`. Without colours the latter two do not
change the text. -/
structure Colors where
  on : Bool
  blueBold : Str → Str
  red : Str → Str

/-- No colours. -/
def Colors.none : Colors := ⟨false, id, id⟩

/-- `str::repeat` of one character. -/
def repeated (n : Nat) (c : Char) : Str := List.replicate n c

/-- `PadStr::pad` with alignment to the right. -/
def padLeft (width : Nat) (s : Str) : Str := repeated (width - s.length) ' ' ++ s

/-- One line of the listing: lines 165-203. -/
def renderLine (C : Colors) (gutter : Nat) (last : Bool) (l : ListedLine) : Option Str :=
  match slice l.line 0 l.start, slice l.line l.start l.stop, slice l.line l.stop (utf8Len l.line) with
  | some before, some marked, some after =>
    some (C.blueBold (padLeft gutter (showNat l.number) ++ [' ', '\u2502', ' ']) ++ before ++ C.red marked ++ after ++
      if C.on then []
      else if l.start = l.stop then '\n' :: repeated gutter ' ' ++ [' '] ++ [if last then ' ' else '\u250a']
      else
        '\n' :: repeated gutter ' ' ++ [' '] ++ [if last then ' ' else '\u250a'] ++ [' '] ++ repeated l.start ' ' ++
          repeated (l.stop - l.start) '\u203e')
  | _, _, _ => none

/-- All lines, in order; the last one is rendered differently. -/
def renderLines (C : Colors) (gutter : Nat) : List ListedLine → Option (List Str)
  | [] => some []
  | [l] => (renderLine C gutter true l).map (fun s => [s])
  | l :: l' :: rest =>
    match renderLine C gutter false l, renderLines C gutter (l' :: rest) with
    | some s, some ss => some (s :: ss)
    | _, _ => none

/-- `listing`: lines 101-206. -/
def listing (T : CharTable) (C : Colors) (source : Str) (r : SourceRange) : Option Str :=
  let lines := listedLines T r 0 0 (splitOn '\n' source)
  let gutter := lines.foldl (fun acc l => max acc (showNat l.number).length) 0
  (renderLines C gutter lines).map (joinWith ['\n'])

/-- Does a text end with a line which looks empty? `/repo/src/error_merger.rs` lines 15-21. -/
def endsBlank (acc : Str) : Bool := ((splitOn '\n' acc).getLast?.getD []).all (fun c => c == ' ' || c == '\u203e')

/-- `merge_errors`: `/repo/src/error_merger.rs` lines 4-34, on the texts of the errors. -/
def mergeErrors (T : CharTable) (errors : List Str) : Str :=
  trim T (errors.foldl (fun acc e => acc ++ ['\n'] ++ (if endsBlank acc then [] else ['\n']) ++ e) [])

end Typical
