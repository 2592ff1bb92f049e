import Verif.Front.Main

/-!
# Specification: what a run prints and does

From the model this uses the vocabulary (`CliEvent`, `Exit`, `Effect`, `Style`) and the shape of an error (`throwText`, `withReason`, see `Spec/Report.lean` and C93).
-/

namespace Typical

/-- A line on standard error. -/
def CliEvent.line (text : Str) : CliEvent := .stderr (text ++ ['\n'])

/-- What was printed to standard output. -/
def stdoutText : List CliEvent → Str
  | [] => []
  | .stdout text :: rest => text ++ stdoutText rest
  | _ :: rest => stdoutText rest

/-- What was done to the file system. -/
def effectsOf : List CliEvent → List Effect
  | [] => []
  | .effect e :: rest => e :: effectsOf rest
  | _ :: rest => effectsOf rest

/-- Printing succeeds; `os` tells which effects fail. -/
def CliEvent.succeeds (os : Effect → Option Str) : CliEvent → Bool
  | .effect e => (os e).isNone
  | _ => true

/-- "1 schema loaded." or "… schemas loaded." -/
def loadedText : Nat → Str
  | 1 => "1 schema loaded.".toList
  | n => showNat n ++ " schemas loaded.".toList

/-- One output of `generate`: the directory is created, the user is told which file is written, and it is written. -/
def plannedFile (code : Str → Str) (language : Str) (path : Option FPath) (text : Str) : List CliEvent :=
  match path with
  | none => []
  | some p => .line ("Generating ".toList ++ language ++ "\u2026".toList) :: p.parent.toList.map (fun d => .effect (.createDir d)) ++
      [.line ("Writing ".toList ++ code p.text ++ "\u2026".toList), .effect (.write p text)]

/-- All that `generate` is to print and do for valid schemas. -/
def plannedGenerate (code : Str → Str) (dir : FPath) (files : List (List Str)) (list : Bool) (rust typescript : Option FPath) (rustText tsText : Str) :
    List CliEvent :=
  [.line "Loading schemas\u2026".toList, .line (loadedText files.length), .line "Validating schemas\u2026".toList] ++
    (if list then .line "Listing schemas\u2026".toList :: files.map (fun p => .stdout ((FPath.mk dir.absolute (dir.parts ++ p)).text ++ ['\n'])) else []) ++
    plannedFile code "Rust".toList rust rustText ++ plannedFile code "TypeScript".toList typescript tsText ++ [.line "Done.".toList]

/-- What the user is told if an effect of `generate` fails. -/
def generateFailure (P : Style) : Effect → Str → Str
  | .createDir d, reason => withReason P (throwText P ("Unable to create ".toList ++ P.code d.text ++ ".".toList) none none) (some reason)
  | .write p _, reason => withReason P (throwText P ("Unable to write ".toList ++ P.code p.text ++ ".".toList) none none) (some reason)
  | .list _, _ => []

/-- All that `format` is to print and do for files (given by their paths, texts and formatted texts), up to the last line: each file is named, and written if its text is to change. -/
def plannedFormat (code : Str → Str) (dir : FPath) (files : List (List Str × Str × Str)) (check : Bool) : List CliEvent :=
  [.line "Loading schemas\u2026".toList, .line (loadedText files.length),
    .line ((if check then "Checking".toList else "Formatting".toList) ++ " schemas\u2026".toList)] ++
  files.flatMap (fun f => .line ("  ".toList ++ code (FPath.mk dir.absolute (dir.parts ++ f.1)).text) ::
    (if f.2.1 ≠ f.2.2 ∧ check = false then [.effect (.write ⟨dir.absolute, dir.parts ++ f.1⟩ f.2.2)] else []))

/-- The names of shells. -/
def Shell.name : Shell → String
  | .bash => "Bash"
  | .fish => "Fish"
  | .zsh => "Zsh"
  | .powerShell => "PowerShell"
  | .elvish => "Elvish"

end Typical
