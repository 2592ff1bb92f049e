import Verif.Front.Loader
import Verif.Spec.Format

/-!
# Specification of loading

Files are identified by their paths relative to the base directory (the directory of the file given by the user).
-/

namespace Typical

/-- The file can be read, has this text, and parses to this schema. -/
def Parses (T : CharTable) (E : LoadEnv) (path : List Str) (contents : Str) (schema : Schema) : Prop :=
  E.fs.read (E.base.join (.rel path)) = some contents ∧
    ∃ toks, tokenize T contents = .ok toks ∧ parse T toks = .ok schema

/-- The import in the file `path` denotes the file `target`: the path of the import, relative to the directory of the file,
leads to the file below the canonical base directory. -/
def ImportDenotes (E : LoadEnv) (path : List Str) (imp : Import) (target : List Str) : Prop :=
  E.fs.canonicalize (E.base.join ((FPath.rel path.dropLast).join (FPath.ofStr imp.path))) = some (E.canonicalBase ++ target)

/-- The files which can be reached from the file `root` by imports. -/
inductive ReachableFile (T : CharTable) (E : LoadEnv) (root : List Str) : List Str → Prop
  | root : ReachableFile T E root root
  | step {p c s i q} : ReachableFile T E root p → Parses T E p c s → i ∈ s.imports → ImportDenotes E p i.2 q →
      ReachableFile T E root q

/-- The file can be loaded: it parses, and all its imports denote files (whose names make namespaces). -/
def LoadableFile (T : CharTable) (E : LoadEnv) (path : List Str) : Prop :=
  path ≠ [] ∧ ∃ c s, Parses T E path c s ∧
    ∀ i ∈ s.imports, ∃ q ns, ImportDenotes E path i.2 q ∧ pathToNamespace T q = some ns

/-- `s'` is the schema `s` of the file `path`, where each import got the namespace of the file it denotes. -/
structure ResolvedSchema (T : CharTable) (E : LoadEnv) (path : List Str) (s s' : Schema) : Prop where
  comment : s'.comment = s.comment
  declarations : s'.declarations = s.declarations
  imports : Each (fun i i' => i'.1 = i.1 ∧ ∃ q ns, ImportDenotes E path i.2 q ∧ pathToNamespace T q = some ns ∧
    i'.2 = { i.2 with namespace_ := some ns }) s.imports s'.imports

/-- The base directory of the run is the directory in which the paths of imports are looked up. (Not so if the file given by the
user is a symbolic link to a file in another directory.) -/
def LoadEnv.SameBase (E : LoadEnv) : Prop :=
  ∀ q : FPath, q.absolute = false → E.fs.canonicalize (E.base.join q) = E.fs.canonicalize ((FPath.mk true E.canonicalBase).join q)

/-- A canonical path is its own canonical path. -/
def FileSystem.CanonicalStable (fs : FileSystem) : Prop :=
  ∀ p c, fs.canonicalize p = some c → fs.canonicalize (FPath.mk true c) = some c

/-- The name of a file without its extension: what precedes the last dot. A dot at the start of the name does not begin an
extension. -/
inductive WithoutExtension : Str → Str → Prop
  | extension (stem ext : Str) : stem ≠ [] → '.' ∉ ext → WithoutExtension (stem ++ '.' :: ext) stem
  | plain (name : Str) : '.' ∉ name → WithoutExtension name name
  | hidden (name : Str) : '.' ∉ name → WithoutExtension ('.' :: name) ('.' :: name)

/-- The parts of a path between slashes, as in `a/b/c.t`: none is empty or `.`. -/
inductive PathParts : Str → List Str → Prop
  | last (c : Str) : c ≠ [] → c ≠ ['.'] → '/' ∉ c → PathParts c [c]
  | cons (c s : Str) (cs : List Str) : c ≠ [] → c ≠ ['.'] → '/' ∉ c → PathParts s cs → PathParts (c ++ '/' :: s) (c :: cs)

/-- What can be wrong with the file `path`, seen on its own. -/
inductive FileProblem (T : CharTable) (E : LoadEnv) (path : List Str) : LoadErr → Prop
  /-- The file cannot be read. -/
  | unreadable : E.fs.read (E.base.join (.rel path)) = none → FileProblem T E path (.unreadable path)
  /-- Its text consists of no tokens. -/
  | lexical (c : Str) (es : List LexErr) : E.fs.read (E.base.join (.rel path)) = some c → tokenize T c = .error es →
      FileProblem T E path (.lexical path es)
  /-- Its tokens are no schema. -/
  | syntactic (c : Str) (toks : List Token) (es : List ParseErr) : E.fs.read (E.base.join (.rel path)) = some c →
      tokenize T c = .ok toks → parse T toks = .err es → FileProblem T E path (.syntactic path es)
  /-- One of its imports leads to no file. -/
  | unresolved (c : Str) (s : Schema) (i : Identifier × Import) : Parses T E path c s → i ∈ s.imports →
      E.fs.canonicalize (E.base.join ((FPath.rel path.dropLast).join (FPath.ofStr i.2.path))) = none →
      FileProblem T E path (.unresolved path i.2)
  /-- One of its imports leads to a file outside of the base directory. -/
  | outside (c : Str) (s : Schema) (i : Identifier × Import) (target : List Str) : Parses T E path c s → i ∈ s.imports →
      E.fs.canonicalize (E.base.join ((FPath.rel path.dropLast).join (FPath.ofStr i.2.path))) = some target →
      ¬ E.canonicalBase <+: target → FileProblem T E path (.outside path i.2 target)

end Typical
