import Verif.Front.Schema

/-!
# Model of `/repo/src/validator.rs`

Simplifications: a `HashSet` or `HashMap` is a list; error messages are reduced to their kind and the data which
identifies the problem; a type is identified by the keys of its namespace and name (what equality of the
`HashMap` keys depends on).
-/

namespace Typical

/-- What equality of `(Namespace, Identifier)` depends on. -/
abbrev TypeKey := List Str × Str

/-- `MAX_FIELD_INDEX`: lines 14-16. -/
def maxFieldIndex : Nat := 1 <<< 62 - 1

/-- The errors reported by `validate`, with the file (here its namespace instead of its path) and the range which is listed: lines
46-54, 63-72, 76-85, 89-98, 102-112, 128-137, 210-218, 228-241. -/
inductive VErr
  | duplicateDeclaration (ns : Namespace) (range : SourceRange) (name : Identifier)
  | duplicateFieldName (ns : Namespace) (range : SourceRange) (name : Identifier)
  | duplicateFieldIndex (ns : Namespace) (range : SourceRange) (index : Nat)
  | deletedIndex (ns : Namespace) (range : SourceRange) (index : Nat)
  | indexTooLarge (ns : Namespace) (range : SourceRange) (index : Nat)
  | indexGap (ns : Namespace) (range : SourceRange) (index : Nat)
  | noImport (ns : Namespace) (range : SourceRange) (name : Identifier)
  | noType (ns : Namespace) (range : SourceRange) (import_ : Option Identifier) (name : Identifier)
  | cycle (path : List TypeKey)
  deriving DecidableEq

/-- Reasons not to return: a failed `unwrap`; `fuel` is an artefact of the model (proved unreachable). -/
inductive Stop
  | panic
  | fuel
  deriving DecidableEq, Repr

/-- The entries inserted into `all_types`, in order: lines 26-36. -/
def typeEntries (S : Schemas) : List (TypeKey × Schema × Declaration) :=
  S.flatMap (fun (ns, s) => s.declarations.map (fun d => ((ns.key, d.name.snakeCase), s, d)))

/-- `all_types.get`. Later insertions replace earlier ones. -/
def allTypes (S : Schemas) (k : TypeKey) : Option (Schema × Declaration) :=
  ((typeEntries S).reverse.find? (fun e => e.1 == k)).map Prod.snd

/-- `HashSet::insert`. -/
def setInsert {α : Type} [DecidableEq α] (a : α) (l : List α) : List α := if a ∈ l then l else a :: l

/-- `validate_type`: lines 175-245. -/
def validateType (S : Schemas) (ns : Namespace) (schema : Schema) : SourceRange → TypeVariant → Except Stop (List VErr)
  | _, .array r inner => validateType S ns schema r inner
  | range, .custom none name =>
    .ok (if (allTypes S (ns.key, name.snakeCase)).isSome then [] else [.noType ns range none name])
  | range, .custom (some i) name =>
    match lookupIdent i schema.imports with
    | none => .ok [.noImport ns range i]
    | some im =>
      match im.namespace_ with
      | none => .error .panic
      | some n => .ok (if (allTypes S (n.key, name.snakeCase)).isSome then [] else [.noType ns range (some i) name])
  | _, .bool => .ok []
  | _, .bytes => .ok []
  | _, .f64 => .ok []
  | _, .s64 => .ok []
  | _, .string => .ok []
  | _, .u64 => .ok []
  | _, .unit => .ok []

/-- The loop over the fields of a declaration: lines 57-121. Gives the errors and the final `field_indices`. -/
def checkFields (S : Schemas) (ns : Namespace) (schema : Schema) (deleted : List Nat) :
    List Field → List Str → List Nat → Except Stop (List VErr × List Nat)
  | [], _, indices => .ok ([], indices)
  | f :: fs, names, indices =>
    let e1 := if f.name.snakeCase ∈ names then [VErr.duplicateFieldName ns f.sourceRange f.name] else []
    let e2 := if f.index ∈ indices then [VErr.duplicateFieldIndex ns f.sourceRange f.index] else []
    let e3 := if f.index ∈ deleted then [VErr.deletedIndex ns f.sourceRange f.index] else []
    let e4 := if f.index > maxFieldIndex then [VErr.indexTooLarge ns f.sourceRange f.index] else []
    match validateType S ns schema f.type.sourceRange f.type.variant with
    | .error e => .error e
    | .ok e5 =>
      match checkFields S ns schema deleted fs (setInsert f.name.snakeCase names) (setInsert f.index indices) with
      | .error e => .error e
      | .ok (es, indices) => .ok (e1 ++ e2 ++ e3 ++ e4 ++ e5 ++ es, indices)

/-- Unused indices below the number of used and deleted ones: lines 123-136. -/
def indexGaps (ns : Namespace) (range : SourceRange) (indices deleted : List Nat) : List VErr :=
  ((List.range (indices.length + deleted.length)).filter
    (fun i => !indices.contains i && !deleted.contains i)).map (.indexGap ns range)

/-- The loop over the declarations of a file: lines 41-137. -/
def checkDeclarations (S : Schemas) (ns : Namespace) (schema : Schema) :
    List Declaration → List Str → Except Stop (List VErr)
  | [], _ => .ok []
  | d :: ds, names =>
    let e1 := if d.name.snakeCase ∈ names then [VErr.duplicateDeclaration ns d.sourceRange d.name] else []
    match checkFields S ns schema d.deleted d.fields [] [] with
    | .error e => .error e
    | .ok (e2, indices) =>
      match checkDeclarations S ns schema ds (setInsert d.name.snakeCase names) with
      | .error e => .error e
      | .ok es => .ok (e1 ++ e2 ++ indexGaps ns d.sourceRange indices d.deleted ++ es)

/-- The loop over the files: lines 38-138. -/
def checkSchemas (S : Schemas) : Schemas → Except Stop (List VErr)
  | [] => .ok []
  | (ns, s) :: l =>
    match checkDeclarations S ns s s.declarations [] with
    | .error e => .error e
    | .ok e1 =>
      match checkSchemas S l with
      | .error e => .error e
      | .ok es => .ok (e1 ++ es)

/-- The state of the search for cycles: `types_checked`, `types_visited_set`, `types_visited_vec` (last element first)
and `errors`. -/
structure CycleState where
  checked : List TypeKey
  visitedSet : List TypeKey
  visitedVec : List TypeKey
  errors : List VErr

/-- `check_type_for_cycles`: lines 324-381. `visit` is `check_declaration_for_cycles`. -/
def checkType (visit : CycleState → TypeKey → Except Stop CycleState) (schema : Schema) (ns : List Str)
    (st : CycleState) : TypeVariant → Except Stop CycleState
  | .array _ inner => checkType visit schema ns st inner
  | .custom none name => visit st (ns, name.snakeCase)
  | .custom (some i) name =>
    match lookupIdent i schema.imports with
    | none => .error .panic
    | some im =>
      match im.namespace_ with
      | none => .error .panic
      | some n => visit st (n.key, name.snakeCase)
  | .bool => .ok st
  | .bytes => .ok st
  | .f64 => .ok st
  | .s64 => .ok st
  | .string => .ok st
  | .u64 => .ok st
  | .unit => .ok st

/-- The loop over the fields: lines 299-312. -/
def checkFieldTypes (visit : CycleState → TypeKey → Except Stop CycleState) (schema : Schema) (ns : List Str) :
    List Field → CycleState → Except Stop CycleState
  | [], st => .ok st
  | f :: fs, st =>
    match checkType visit schema ns st f.type.variant with
    | .error e => .error e
    | .ok st => checkFieldTypes visit schema ns fs st

/-- `check_declaration_for_cycles`: lines 248-320. The first argument bounds the depth of the recursion. -/
def checkDeclaration (S : Schemas) : Nat → CycleState → TypeKey → Except Stop CycleState
  | 0, _, _ => .error .fuel
  | fuel + 1, st, k =>
    if k ∈ st.checked then .ok st
    else if k ∈ st.visitedSet then
      .ok { st with
        errors := st.errors ++ [.cycle (k :: st.visitedVec).reverse]
        checked := setInsert k st.checked }
    else
      match allTypes S k with
      | none => .error .panic
      | some (schema, declaration) =>
        match checkFieldTypes (checkDeclaration S fuel) schema k.1 declaration.fields
            { st with visitedVec := k :: st.visitedVec, visitedSet := setInsert k st.visitedSet } with
        | .error e => .error e
        | .ok st => .ok { st with
            visitedSet := st.visitedSet.filter (fun k' => k' ≠ k)
            visitedVec := st.visitedVec.tail
            checked := setInsert k st.checked }

/-- The loop over all declarations: lines 147-159. -/
def checkAll (S : Schemas) (fuel : Nat) : List TypeKey → CycleState → Except Stop CycleState
  | [], st => .ok st
  | k :: ks, st =>
    match checkDeclaration S fuel st k with
    | .error e => .error e
    | .ok st => checkAll S fuel ks st

/-- `validate`: lines 20-172. The list of errors, empty if the schemas are valid. -/
def validate (S : Schemas) : Except Stop (List VErr) :=
  match checkSchemas S S with
  | .error e => .error e
  | .ok (e :: es) => .ok (e :: es)
  | .ok [] =>
    match checkAll S ((typeEntries S).length + 1) ((typeEntries S).map Prod.fst) ⟨[], [], [], []⟩ with
    | .error e => .error e
    | .ok st => .ok st.errors

end Typical
