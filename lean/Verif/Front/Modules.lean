import Verif.Front.Schema

/-!
# Model of the module tree and of references between modules

`/repo/src/schema.rs` (`relativize_namespace`), `/repo/src/generate_rust.rs` (`Module`, `insert_schema`, `write_module`,
`write_module_contents`, the path written by `write_type`) and `/repo/src/generate_typescript.rs` (the same, and
`write_custom_type`).

Not modelled: the text of modules, keywords.
-/

namespace Typical

/-- The loop of `relativize_namespace`: `/repo/src/schema.rs` lines 100-112. The number of common components. -/
def commonComponents : List Identifier → List Identifier → Nat
  | a :: l, b :: l' => if a.same b then commonComponents l l' + 1 else 0
  | _, _ => 0

/-- `relativize_namespace`: `/repo/src/schema.rs` lines 99-121. -/
def relativizeNamespace (namespace1 namespace2 : Namespace) : Namespace × Nat :=
  (⟨namespace1.components.drop (commonComponents namespace1.components namespace2.components)⟩,
    namespace2.components.length - commonComponents namespace1.components namespace2.components)

mutual
/-- `Module`: `/repo/src/generate_rust.rs` lines 74-78. -/
inductive Module
  | mk (children : Modules) (schema : Schema)
/-- `BTreeMap<Identifier, Module>`. -/
inductive Modules
  | nil
  | cons (name : Identifier) (child : Module) (rest : Modules)
end

/-- The schema of a module for which there is no file: lines 419-426. -/
def emptySchema : Schema := ⟨[], [], []⟩

/-- The empty tree. -/
def Module.empty : Module := ⟨.nil, emptySchema⟩

/-- Lexicographic order of strings (by code points, which agrees with the order of UTF-8 bytes). -/
def strLt : Str → Str → Bool
  | _, [] => false
  | [], _ :: _ => true
  | a :: l, b :: l' => a.toNat < b.toNat || (a.toNat == b.toNat && strLt l l')

/-- `BTreeMap::get`; equality of identifiers is that of the snake-case names. -/
def Modules.get (k : Str) : Modules → Option Module
  | .nil => none
  | .cons k' m rest => if k'.snakeCase = k then some m else rest.get k

/-- Replace a value which is present (`get_mut`). -/
def Modules.set (k : Str) (m : Module) : Modules → Modules
  | .nil => .nil
  | .cons k' m' rest => if k'.snakeCase = k then .cons k' m rest else .cons k' m' (rest.set k m)

/-- `BTreeMap::insert`, for a key which is absent. -/
def Modules.insert (k : Identifier) (m : Module) : Modules → Modules
  | .nil => .cons k m .nil
  | .cons k' m' rest => if strLt k.snakeCase k'.snakeCase then .cons k m (.cons k' m' rest)
    else .cons k' m' (rest.insert k m)

/-- `insert_schema`: lines 408-443. -/
def insertSchema : Module → List Identifier → Schema → Module
  | .mk children _, [], schema => .mk children schema
  | .mk children s, head :: tail, schema =>
    match children.get head.snakeCase with
    | some child => .mk (children.set head.snakeCase (insertSchema child tail schema)) s
    | none => .mk (children.insert head (insertSchema .empty tail schema)) s

/-- The tree of all modules: lines 114-131. -/
def buildTree (S : Schemas) : Module := S.foldl (fun m e => insertSchema m e.1.components e.2) .empty

mutual
/-- `write_module_contents`, `write_module`: lines 446-496. The declarations written, each with the namespace of the module which
contains it, in the order in which they are written. -/
def Module.written (namespace_ : List Identifier) : Module → List (List Identifier × Declaration)
  | .mk children schema => children.written namespace_ ++ schema.declarations.map (fun d => (namespace_, d))
def Modules.written (namespace_ : List Identifier) : Modules → List (List Identifier × Declaration)
  | .nil => []
  | .cons name child rest => child.written (namespace_ ++ [name]) ++ rest.written namespace_
end

/-- The names of modules, in the order in which `write_module_contents` writes them: lines 476-496. -/
def Modules.names : Modules → List Identifier
  | .nil => []
  | .cons i _ rest => i :: rest.names

/-- The module with a given path (of keys). -/
def Module.find : Module → List Str → Option Module
  | m, [] => some m
  | .mk children _, k :: ks =>
    match children.get k with
    | none => none
    | some m => m.find ks

/-- The schema of a module. -/
def Module.schema : Module → Schema
  | .mk _ s => s

/-- The path written for a reference to a type in the module `target` from the module `current`:
`/repo/src/generate_rust.rs` lines 1657-1674. The number of `super::` and the names of modules after them. -/
def rustReference (target current : Namespace) : Nat × List Identifier :=
  ((relativizeNamespace target current).2, (relativizeNamespace target current).1.components)

/-- The path written for a reference to a type in the module `target`: `/repo/src/generate_typescript.rs` lines 1656-1670. Names of
namespaces from the top (independent of the referring module), then the name of the type. -/
def tsReference (target : Namespace) (name : Identifier) : List Identifier := target.components ++ [name]

end Typical
