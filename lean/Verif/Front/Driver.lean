import Verif.Front.Format
import Verif.Front.Loader
import Verif.Front.Validator

/-!
# Model of the subcommands `generate` and `format`: `/repo/src/main.rs` lines 127-281

The text of the generated code is a parameter here (its meaning is the subject of the other models). Messages on standard error are
left out. Whether a write to the file system succeeds is a parameter; a write which fails is taken to change nothing.
-/

namespace Typical

/-- The end of a run: exit code 0, exit code 1, a panic, or not within the given number of steps. -/
inductive Outcome
  | success
  | failure
  | panic
  | running
  deriving DecidableEq

/-- The loop of `format_schema`: lines 241-268. The first result is `any_schema_updated`, or none if a write failed. -/
def formatLoop (T : CharTable) (F : Nat → Str → Str) (directory : FPath) (check : Bool) (canWrite : FPath → Bool) :
    List (Namespace × LoadedFile) → Bool → Option Bool × List (FPath × Str)
  | [], any => (some any, [])
  | e :: rest, any =>
    let full := directory.join (.rel e.2.path)
    let new := format T F e.2.schema
    let updated := e.2.contents != new
    let any := if updated then true else any
    if updated && !check then
      if canWrite full then
        let r := formatLoop T F directory check canWrite rest any
        (r.1, (full, new) :: r.2)
      else (none, [])
    else formatLoop T F directory check canWrite rest any

/-- `format_schema`: lines 222-281. The outcome, and the files written, with their new texts. -/
def formatSchema (T : CharTable) (F : Nat → Str → Str) (fs : FileSystem) (fuel : Nat) (canWrite : FPath → Bool) (path : FPath)
    (check : Bool) : Outcome × List (FPath × Str) :=
  match loadSchemas T fs fuel path with
  | .panic => (.panic, [])
  | .running => (.running, [])
  | .err _ => (.failure, [])
  | .ok S =>
    match path.parent with
    | none => (.panic, [])
    | some directory =>
      match formatLoop T F directory check canWrite S false with
      | (none, writes) => (.failure, writes)
      | (some any, writes) => (if check && any then .failure else .success, writes)

/-- What `generate` does to the outside. -/
inductive Effect
  | list (path : FPath)
  | createDir (path : FPath)
  | write (path : FPath) (text : Str)
  deriving DecidableEq

/-- Lines 160-169 and 188-197: the directory to be created. -/
def parentDir (path : FPath) : List Effect :=
  match path.parent with
  | none => []
  | some parent => [Effect.createDir parent]

/-- Lines 158-182 and 185-215: the directory is created and the file written. The first result: whether all this succeeded. -/
def writeOutput (can : Effect → Bool) (path : FPath) (text : Str) : Bool × List Effect :=
  let dir := parentDir path
  if dir.all can then
    if can (.write path text) then (true, dir ++ [.write path text]) else (false, dir)
  else (false, [])

/-- An output which is not requested. -/
def writeRequested (can : Effect → Bool) (path : Option FPath) (text : Str) : Bool × List Effect :=
  match path with
  | none => (true, [])
  | some path => writeOutput can path text

/-- Lines 143-153: `--list-schemas`. -/
def listSchemas (path : FPath) (list : Bool) (S : List (Namespace × LoadedFile)) : Option (List Effect) :=
  if list then
    match path.parent with
    | none => none
    | some directory => some (S.map (fun e => .list (directory.join (.rel e.2.path))))
  else some []

/-- `generate_code`: lines 128-219. `rustText` and `tsText` are `generate_rust::generate` and `generate_typescript::generate`;
`can` tells which effects succeed. -/
def generateCode (T : CharTable) (rustText tsText : Schemas → Str) (fs : FileSystem) (fuel : Nat) (can : Effect → Bool)
    (path : FPath) (list : Bool) (rust typescript : Option FPath) : Outcome × List Effect :=
  match loadSchemas T fs fuel path with
  | .panic => (.panic, [])
  | .running => (.running, [])
  | .err _ => (.failure, [])
  | .ok S =>
    let schemas : Schemas := S.map (fun e => (e.1, e.2.schema))
    match validate schemas with
    | .error _ => (.panic, [])
    | .ok (_ :: _) => (.failure, [])
    | .ok [] =>
      match listSchemas path list S with
      | none => (.panic, [])
      | some listed =>
        match writeRequested can rust (rustText schemas) with
        | (false, effects) => (.failure, listed ++ effects)
        | (true, effects) =>
          match writeRequested can typescript (tsText schemas) with
          | (false, effects') => (.failure, listed ++ effects ++ effects')
          | (true, effects') => (.success, listed ++ effects ++ effects')

end Typical
