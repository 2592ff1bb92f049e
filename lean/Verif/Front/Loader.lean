import Verif.Front.Parser

/-!
# Model of the loader: `/repo/src/schema_loader.rs`

Paths are Unix paths. The file system is a parameter: which canonical path a path has (`Path::canonicalize`, after following
symbolic links), and which text the file with a canonical path has (`read_to_string`; none for directories, for
files which cannot be read, and for text which is not UTF-8). It does not change while the program loads files. Names of
files which are not UTF-8 (`to_string_lossy`) and the texts of error messages are not modelled.
-/

namespace Typical

/-- `PathBuf`, as the components (`Path::components`); `.` and repeated slashes are left out. -/
structure FPath where
  absolute : Bool
  parts : List Str
  deriving DecidableEq

/-- `Path::new`. -/
def FPath.ofStr (s : Str) : FPath := ⟨s.head? = some '/', pathParts s⟩

/-- A relative path. -/
def FPath.rel (parts : List Str) : FPath := ⟨false, parts⟩

/-- `Path::join`: an absolute path replaces the other one. -/
def FPath.join (p q : FPath) : FPath := if q.absolute then q else ⟨p.absolute, p.parts ++ q.parts⟩

/-- `Path::parent`: none for the root and for the empty path. -/
def FPath.parent (p : FPath) : Option FPath := if p.parts = [] then none else some ⟨p.absolute, p.parts.dropLast⟩

/-- `Path::file_name`: the last component, unless it is `..`. -/
def FPath.fileName (p : FPath) : Option Str :=
  match p.parts.getLast? with
  | none => none
  | some c => if c = ['.', '.'] then none else some c

/-- The file system. -/
structure FileSystem where
  /-- `Path::canonicalize`: the components of the absolute path without symbolic links, `.` and `..`. -/
  canonicalize : FPath → Option (List Str)
  /-- The text of the file with this canonical path. -/
  contents : List Str → Option Str

/-- `read_to_string`. -/
def FileSystem.read (fs : FileSystem) (p : FPath) : Option Str := (fs.canonicalize p).bind fs.contents

/-- `path_to_namespace`: lines 21-37, for a relative path with normal components only. `set_extension("")` leaves the file's
stem, which can be `.` (as in `..t`) or `..` (as in `...t`); `Path::components` drops `.` except at the start of a path.
`none`: the panic of line 32. -/
def pathToNamespace (T : CharTable) (path : List Str) : Option Namespace :=
  match path.getLast? with
  | none => some ⟨[]⟩
  | some name =>
    let stem := stemOf name
    if stem = ['.', '.'] then none
    else if stem = ['.'] then if path.length = 1 then none else some ⟨path.dropLast.map (Identifier.ofStr T)⟩
    else some ⟨(path.dropLast ++ [stem]).map (Identifier.ofStr T)⟩

/-- The errors of the loader: lines 53-60, 83-92, 102-109, 132-148, 153-160, 163-170, 188-199, 210-224, 243-256. Paths are those
the messages contain. -/
inductive LoadErr
  | notAFile
  | unreadable (path : List Str)
  | lexical (path : List Str) (errors : List LexErr)
  | syntactic (path : List Str) (errors : List ParseErr)
  | unresolved (path : List Str) (import_ : Import)
  | outside (path : List Str) (import_ : Import) (target : List Str)
  | conflict (path : List Str) (other : List Str)
  deriving DecidableEq

/-- An entry of the map of schemas: the schema, its path relative to the base directory, and its text. -/
structure LoadedFile where
  schema : Schema
  path : List Str
  contents : Str
  deriving DecidableEq

/-- What is constant during the run: the file system, `base_path` and `canonical_base_path`. -/
structure LoadEnv where
  fs : FileSystem
  base : FPath
  canonicalBase : List Str

/-- `Path::strip_prefix`. -/
def stripPrefix : List Str → List Str → Option (List Str)
  | [], q => some q
  | _ :: _, [] => none
  | a :: p, b :: q => if a = b then stripPrefix p q else none

/-- The variables which the loop over the imports changes: `schemas_to_load` (the top of the stack is the head of the list; the
third components, the origins, only appear in messages), `visited_namespaces` (the keys of the namespaces), and `errors`. -/
structure Frontier where
  toLoad : List (Namespace × List Str)
  visited : List (List Str)
  errors : List LoadErr

/-- The body of the loop over the imports: lines 178-238. `none`: panic. -/
def loadImport (T : CharTable) (E : LoadEnv) (path parent : List Str) (imp : Import) (f : Frontier) : Option (Import × Frontier) :=
  match E.fs.canonicalize (E.base.join ((FPath.rel parent).join (FPath.ofStr imp.path))) with
  | none => some (imp, { f with errors := f.errors ++ [.unresolved path imp] })
  | some canonical =>
    match stripPrefix E.canonicalBase canonical with
    | none => some (imp, { f with errors := f.errors ++ [.outside path imp canonical] })
    | some based =>
      match pathToNamespace T based with
      | none => none
      | some ns =>
        some ({ imp with namespace_ := some ns },
          if f.visited.contains ns.key then f
          else { f with toLoad := (ns, based) :: f.toLoad, visited := ns.key :: f.visited })

/-- The loop over the imports: lines 178-239. -/
def loadImports (T : CharTable) (E : LoadEnv) (path parent : List Str) : List (Identifier × Import) → Frontier →
    Option (List (Identifier × Import) × Frontier)
  | [], f => some ([], f)
  | (name, imp) :: l, f =>
    match loadImport T E path parent imp f with
    | none => none
    | some (imp, f) =>
      match loadImports T E path parent l f with
      | none => none
      | some (l, f) => some ((name, imp) :: l, f)

/-- The order of namespaces: lexicographic in their components. -/
def keyBefore : List Str → List Str → Bool
  | _, [] => false
  | [], _ :: _ => true
  | a :: s, b :: t => if strBefore a b then true else if a = b then keyBefore s t else false

/-- `BTreeMap::insert` with namespaces as keys, with the value which was there before. -/
def insertLoaded {α : Type} (ns : Namespace) (v : α) : List (Namespace × α) → List (Namespace × α) × Option α
  | [] => ([(ns, v)], none)
  | (n, w) :: l =>
    if ns.key = n.key then ((n, v) :: l, some w)
    else if keyBefore ns.key n.key then ((ns, v) :: (n, w) :: l, none)
    else
      let (l', old) := insertLoaded ns v l
      ((n, w) :: l', old)

/-- The result of loading; `running`: the loop has not ended within the given number of steps. -/
inductive LoadResult
  | panic
  | running
  | ok (schemas : List (Namespace × LoadedFile))
  | err (errors : List LoadErr)

/-- The loop over the frontier: lines 127-264. The number of steps is bounded by the first argument. -/
def loadLoop (T : CharTable) (E : LoadEnv) : Nat → Frontier → List (Namespace × LoadedFile) → LoadResult
  | 0, _, _ => .running
  | fuel + 1, f, schemas =>
    match f.toLoad with
    | [] => if f.errors = [] then .ok schemas else .err f.errors
    | (ns, path) :: rest =>
      let f := { f with toLoad := rest }
      match E.fs.read (E.base.join (.rel path)) with
      | none => loadLoop T E fuel { f with errors := f.errors ++ [.unreadable path] } schemas
      | some contents =>
        match tokenize T contents with
        | .error es => loadLoop T E fuel { f with errors := f.errors ++ [.lexical path es] } schemas
        | .ok tokens =>
          match parse T tokens with
          | .panic => .panic
          | .err es => loadLoop T E fuel { f with errors := f.errors ++ [.syntactic path es] } schemas
          | .ok schema =>
            match (FPath.rel path).parent with
            | none => .panic
            | some parent =>
              match loadImports T E path parent.parts schema.imports f with
              | none => .panic
              | some (imports, f) =>
                match insertLoaded ns (LoadedFile.mk { schema with imports := imports } path contents) schemas with
                | (schemas, none) => loadLoop T E fuel f schemas
                | (schemas, some other) =>
                  loadLoop T E fuel { f with errors := f.errors ++ [.conflict path other.path] } schemas

/-- Lines 51-110: the environment and the file name of the schema. -/
def loadEnv (fs : FileSystem) (schemaPath : FPath) : Option (LoadEnv × Str) :=
  match schemaPath.parent with
  | none => none
  | some base =>
    match (fs.canonicalize schemaPath).bind (fun c => (FPath.mk true c).parent) with
    | none => none
    | some canonicalBase =>
      match schemaPath.fileName with
      | none => none
      | some name => some (⟨fs, base, canonicalBase.parts⟩, name)

/-- `load_schemas`: lines 43-265, for at most `fuel` steps of the loop. -/
def loadSchemas (T : CharTable) (fs : FileSystem) (fuel : Nat) (schemaPath : FPath) : LoadResult :=
  match loadEnv fs schemaPath with
  | none => .err [.notAFile]
  | some (E, name) =>
    match pathToNamespace T [name] with
    | none => .panic
    | some ns => loadLoop T E fuel ⟨[(ns, [name])], [ns.key], []⟩ []

end Typical
