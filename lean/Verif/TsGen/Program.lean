import Verif.TsGen.Sem

/-!
# The generated TypeScript program

The functions in the namespaces which `write_module_contents` and `write_schema` of `/repo/src/generate_typescript.rs` write.
-/

namespace Typical.TsGen

/-- The path of the namespace of a module. -/
def modulePath (T : CharTable) (ns : List Identifier) : List Str := ns.map (fun i => tsPascal T i none)

/-- The path of the namespace which is generated for a declaration. -/
def declPath (T : CharTable) (ns : List Identifier) (d : Declaration) : List Str := modulePath T ns ++ [tsPascal T d.name none]

mutual
/-- The functions in namespaces of declarations: lines 509-560, 563-1327. -/
def moduleCodes (T : CharTable) (ns : List Identifier) : Module → List (List Str × (Fn → Stms))
  | .mk children schema =>
    modulesCodes T ns children ++ schema.declarations.map (fun d => (declPath T ns d, (declCode T schema ⟨ns⟩ d).body))
def modulesCodes (T : CharTable) (ns : List Identifier) : Modules → List (List Str × (Fn → Stms))
  | .nil => []
  | .cons name child rest => moduleCodes T (ns ++ [name]) child ++ modulesCodes T ns rest
end

mutual
/-- The paths of the namespaces of modules: lines 509-560. -/
def modulePaths (T : CharTable) (ns : List Identifier) : Module → List (List Str)
  | .mk children _ => modulesPaths T ns children
def modulesPaths (T : CharTable) (ns : List Identifier) : Modules → List (List Str)
  | .nil => []
  | .cons name child rest => modulePath T (ns ++ [name]) :: (modulePaths T (ns ++ [name]) child ++ modulesPaths T ns rest)
end

/-- The functions at a path: those of the first declaration with this path. -/
def findCode (path : List Str) : List (List Str × (Fn → Stms)) → Option (Fn → Stms)
  | [] => none
  | (p, c) :: l => if p = path then some c else findCode path l

/-- The paths of all namespaces. (A namespace of a declaration and one of a module with the same path are merged.) -/
def allPaths (T : CharTable) (m : Module) : List (List Str) := modulePaths T [] m ++ (moduleCodes T [] m).map (·.1)

/-- The generated program. -/
def program (T : CharTable) (S : Schemas) : Prog where
  code := fun path => findCode path (moduleCodes T [] (buildTree S))
  exports := fun path name => (allPaths T (buildTree S)).contains (path ++ [name])

end Typical.TsGen
