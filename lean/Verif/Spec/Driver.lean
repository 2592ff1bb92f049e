import Verif.Front.Driver

/-!
# Specification: the file system after writes
-/

namespace Typical

/-- The file system after one file was written: the canonical path has the new text. (A file which does not exist yet, or cannot be
found, is not described.) -/
def FileSystem.afterWrite (fs : FileSystem) (w : FPath × Str) : FileSystem where
  canonicalize := fs.canonicalize
  contents c := if fs.canonicalize w.1 = some c then some w.2 else fs.contents c

/-- The file system after the files were written in this order. -/
def FileSystem.afterWrites (fs : FileSystem) : List (FPath × Str) → FileSystem
  | [] => fs
  | w :: ws => (fs.afterWrite w).afterWrites ws

/-- What `generate` is to do for an output: create its directory, and write the file. -/
def plannedOutput (path : Option FPath) (text : Str) : List Effect :=
  match path with
  | none => []
  | some p => p.parent.toList.map .createDir ++ [.write p text]

/-- All that `generate` is to do for valid schemas: list the files if requested (`dir` is the directory of the file given by
the user), then produce the Rust output, then the TypeScript output. -/
def plannedEffects (dir : FPath) (files : List (List Str)) (list : Bool) (rust typescript : Option FPath)
    (rustText tsText : Str) : List Effect :=
  (if list then files.map (fun p => .list ⟨dir.absolute, dir.parts ++ p⟩) else []) ++
    plannedOutput rust rustText ++ plannedOutput typescript tsText

/-- Listing always succeeds; `can` tells which writes succeed. -/
def Effect.succeeds (can : Effect → Bool) : Effect → Bool
  | .list _ => true
  | .createDir p => can (.createDir p)
  | .write p t => can (.write p t)

/-- The file cannot be read. (It is not valid UTF-8, for example.) -/
def FileSystem.spoil (fs : FileSystem) (p : FPath) : FileSystem where
  canonicalize := fs.canonicalize
  contents c := if fs.canonicalize p = some c then none else fs.contents c

/-- What a crash can leave behind while the files `ws` are written in this order, with `std::fs::write`, which first makes the file empty and then writes the text:
some files have their new texts, and the one which was being written has a leading part of its new text (or cannot be read, if the part ends within a character). -/
inductive FileSystem.Interrupted (fs : FileSystem) : List (FPath × Str) → FileSystem → Prop
  | between (k : Nat) (ws : List (FPath × Str)) : fs.Interrupted ws (fs.afterWrites (ws.take k))
  | during (ws₁ : List (FPath × Str)) (w : FPath × Str) (ws₂ : List (FPath × Str)) (j : Nat) :
    fs.Interrupted (ws₁ ++ w :: ws₂) ((fs.afterWrites ws₁).afterWrite (w.1, w.2.take j))
  | spoilt (ws₁ : List (FPath × Str)) (w : FPath × Str) (ws₂ : List (FPath × Str)) : fs.Interrupted (ws₁ ++ w :: ws₂) ((fs.afterWrites ws₁).spoil w.1)

end Typical
