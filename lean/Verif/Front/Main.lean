import Verif.Front.Driver
import Verif.Front.Report

/-!
# Model of a whole run: `/repo/src/main.rs` lines 127-400, `/repo/src/count.rs`

The command line is taken to be parsed (by `clap`). What is modelled: every text which is printed to standard output or to standard error, every effect on the
file system, their order, and the exit code. `Front/Driver.lean` models the same functions without the texts; `C95_driver_*` shows that the two models agree.

Parameters: the colours, the texts which `Front/Report.lean` leaves open, the texts of the generated code, and what the operating system answers (`os`: the text of an error, if the
effect fails; an effect which fails is taken to change nothing). The paths given by the user are shown in their canonical form (`FPath.text`). Writing to standard output and standard error
does not fail.
-/

namespace Typical

/-- What a run does, seen from the outside. -/
inductive CliEvent
  /-- Text printed to standard error. -/
  | stderr (text : Str)
  /-- Text printed to standard output. -/
  | stdout (text : Str)
  /-- A directory is created or a file written. -/
  | effect (e : Effect)
  deriving DecidableEq

/-- How a function which returns a `Result` ends. -/
inductive Ended
  | ok
  | err (text : Str)
  | panic
  | running
  deriving DecidableEq

/-- What happened, and how it ended. -/
abbrev Run := List CliEvent × Ended

/-- `a?; b`. -/
def Run.andThen (a b : Run) : Run :=
  match a.2 with
  | .ok => (a.1 ++ b.1, b.2)
  | _ => a

/-- `eprintln!`. -/
def say (text : Str) : Run := ([.stderr (text ++ ['\n'])], .ok)

/-- `println!`. -/
def tell (text : Str) : Run := ([.stdout (text ++ ['\n'])], .ok)

/-- `count`: `/repo/src/count.rs` lines 3-9. -/
def countText (n : Nat) (noun : Str) : Str :=
  if n = 1 then showNat n ++ ' ' :: noun else showNat n ++ ' ' :: noun ++ ['s']

/-- An effect on the file system, with `map_err`. -/
def attempt (os : Effect → Option Str) (e : Effect) (error : Str → Str) : Run :=
  match os e with
  | none => ([.effect e], .ok)
  | some reason => ([], .err (error reason))

/-- The parameters. -/
structure Setting where
  T : CharTable
  F : Nat → Str → Str
  style : Style
  wording : Wording
  typeText : TypeKey → Str
  rustText : Schemas → Str
  tsText : Schemas → Str
  os : Effect → Option Str

/-- The environment of the loader, for the texts of its errors. (If there is none, the only error is `notAFile`, whose text does not depend on it.) -/
def envFor (fs : FileSystem) (path : FPath) : LoadEnv :=
  match loadEnv fs path with
  | some (E, _) => E
  | none => ⟨fs, path, []⟩

/-- Lines 134-137 and 223-226, and what comes after. -/
def loadRun (X : Setting) (fs : FileSystem) (fuel : Nat) (path : FPath) (next : List (Namespace × LoadedFile) → Run) : Run :=
  (say "Loading schemas\u2026".toList).andThen <|
  match loadSchemas X.T fs fuel path with
  | .panic => ([], .panic)
  | .running => ([], .running)
  | .err es =>
    match loadText X.T X.style X.wording (envFor fs path) es with
    | none => ([], .panic)
    | some text => ([], .err text)
  | .ok S => (say (countText S.length "schema".toList ++ " loaded.".toList)).andThen (next S)

/-- Lines 160-169 and 188-197: `create_dir_all`. -/
def createRun (X : Setting) (path : FPath) : Run :=
  match path.parent with
  | none => ([], .ok)
  | some parent => attempt X.os (.createDir parent) (fun reason =>
      withReason X.style (throwText X.style ("Unable to create ".toList ++ X.style.code parent.text ++ ".".toList) none none) (some reason))

/-- Lines 156-182 and 185-215. -/
def outputRun (X : Setting) (language : Str) (path : Option FPath) (text : Str) : Run :=
  match path with
  | none => ([], .ok)
  | some path =>
    (say ("Generating ".toList ++ language ++ "\u2026".toList)).andThen <|
    (createRun X path).andThen <|
    (say ("Writing ".toList ++ X.style.code path.text ++ "\u2026".toList)).andThen <|
    attempt X.os (.write path text) (fun reason =>
      withReason X.style (throwText X.style ("Unable to write ".toList ++ X.style.code path.text ++ ".".toList) none none) (some reason))

/-- Lines 144-153. -/
def listRun (path : FPath) (list : Bool) (S : List (Namespace × LoadedFile)) : Run :=
  if list then
    (say "Listing schemas\u2026".toList).andThen <|
    match path.parent with
    | none => ([], .panic)
    | some directory => (S.map (fun e => .stdout ((directory.join (.rel e.2.path)).text ++ ['\n'])), .ok)
  else ([], .ok)

/-- `generate_code`: lines 128-219. -/
def generateRun (X : Setting) (fs : FileSystem) (fuel : Nat) (path : FPath) (list : Bool) (rust typescript : Option FPath) : Run :=
  loadRun X fs fuel path fun S =>
    let schemas : Schemas := S.map (fun e => (e.1, e.2.schema))
    (say "Validating schemas\u2026".toList).andThen <|
    match validate schemas with
    | .error _ => ([], .panic)
    | .ok (v :: vs) =>
      match validationText X.T X.style X.typeText S (v :: vs) with
      | none => ([], .panic)
      | some text => ([], .err text)
    | .ok [] =>
      (listRun path list S).andThen <|
      (outputRun X "Rust".toList rust (X.rustText schemas)).andThen <|
      (outputRun X "TypeScript".toList typescript (X.tsText schemas)).andThen <|
      say "Done.".toList

/-- Lines 241-266: the loop, with `any_schema_updated`. -/
def formatLoopRun (X : Setting) (directory : FPath) (check : Bool) : List (Namespace × LoadedFile) → Bool → (Bool → Run) → Run
  | [], any, next => next any
  | e :: rest, any, next =>
    let full := directory.join (.rel e.2.path)
    let new := format X.T X.F e.2.schema
    (say (' ' :: ' ' :: X.style.code full.text)).andThen <|
    let updated := e.2.contents != new
    let any := if updated then true else any
    (if updated && !check then
      attempt X.os (.write full new) (fun reason =>
        withReason X.style (throwText X.style "Unable to write file.".toList (some (pathText e.2.path)) none) (some reason))
    else ([], .ok)).andThen <|
    formatLoopRun X directory check rest any next

/-- `format_schema`: lines 222-281. -/
def formatRun (X : Setting) (fs : FileSystem) (fuel : Nat) (path : FPath) (check : Bool) : Run :=
  loadRun X fs fuel path fun S =>
    match path.parent with
    | none => ([], .panic)
    | some directory =>
      (say ((if check then "Checking".toList else "Formatting".toList) ++ " schemas\u2026".toList)).andThen <|
      formatLoopRun X directory check S false fun any =>
        if check && any then ([], .err (throwText X.style ("Formatting mismatch. Please run ".toList ++
          X.style.code ("typical format ".toList ++ path.text) ++ ".".toList) none none))
        else say "Done.".toList

/-- The shells. -/
inductive Shell
  | bash
  | fish
  | zsh
  | powerShell
  | elvish
  deriving DecidableEq

/-- Lines 286-291. -/
def shellNamed (T : CharTable) (shell : Str) : Option Shell :=
  let name := T.lowercase (trim T shell)
  if name = "bash".toList then some .bash
  else if name = "fish".toList then some .fish
  else if name = "zsh".toList then some .zsh
  else if name = "powershell".toList then some .powerShell
  else if name = "elvish".toList then some .elvish
  else none

/-- `shell_completion`: lines 284-308. `script` is what `clap` generates. -/
def completionRun (X : Setting) (script : Shell → Str) (shell : Str) : Run :=
  match shellNamed X.T shell with
  | none => ([], .err ("Unknown shell ".toList ++ X.style.code shell ++ ". Must be one of Bash, Fish, Zsh, PowerShell, or Elvish.".toList))
  | some s => ([.stdout (script s)], .ok)

/-- The command line. -/
inductive Command
  | generate (path : FPath) (list : Bool) (rust typescript : Option FPath)
  | format (path : FPath) (check : Bool)
  | completion (shell : Str)

/-- `entry`: lines 311-391. -/
def entryRun (X : Setting) (script : Shell → Str) (fs : FileSystem) (fuel : Nat) : Command → Run
  | .generate path list rust typescript => generateRun X fs fuel path list rust typescript
  | .format path check => formatRun X fs fuel path check
  | .completion shell => completionRun X script shell

/-- The end of the process. -/
inductive Exit
  | code (n : Nat)
  | panic
  | running
  deriving DecidableEq

/-- `main`: lines 394-400. -/
def finish (r : Run) : List CliEvent × Exit :=
  match r.2 with
  | .ok => (r.1, .code 0)
  | .err text => (r.1 ++ [.stderr (text ++ ['\n'])], .code 1)
  | .panic => (r.1, .panic)
  | .running => (r.1, .running)

/-- A run of `typical`. -/
def mainRun (X : Setting) (script : Shell → Str) (fs : FileSystem) (fuel : Nat) (c : Command) : List CliEvent × Exit :=
  finish (entryRun X script fs fuel c)

end Typical
