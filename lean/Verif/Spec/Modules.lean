import Verif.Front.Modules

/-!
# Specification: name resolution in Rust and TypeScript

Paths of modules are lists of keys (snake-case names).
-/

namespace Typical

/-- Rust: a path which begins with `supers` times `super::`, in the module with the path `current`, refers to the item with this
absolute path. -/
def rustResolve (current : List Str) (supers : Nat) (rest : List Str) : Option (List Str) :=
  if supers ≤ current.length then some (current.take (current.length - supers) ++ rest) else none

/-- `exports path name`: the namespace with this path exports a namespace with this name. For a file's module these are
the modules inside it and its types (for each type, a namespace with its functions is generated).

TypeScript: in a namespace with the path `current`, the first name of a dotted path refers to the export of the innermost
enclosing namespace which exports that name; the other names are looked up in there. -/
def tsResolve (exports : List Str → Str → Bool) (current : List Str) : List Str → Option (List Str)
  | [] => none
  | name :: rest =>
    ((List.range (current.length + 1)).reverse.find? (fun n => exports (current.take n) name)).map
      (fun n => current.take n ++ name :: rest)

/-- What the generated TypeScript namespace with this path exports. -/
def Module.exports (m : Module) (path : List Str) (name : Str) : Bool :=
  match m.find path with
  | none => false
  | some (.mk children schema) => (children.get name).isSome || schema.declarations.any (fun d => d.name.snakeCase == name)

end Typical
