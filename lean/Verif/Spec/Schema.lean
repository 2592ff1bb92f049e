import Verif.Front.Schema
import Mathlib.Logic.Relation

/-!
# Specification: well-formed schemas

Written from `/repo/README.md` (sections "Schemas", "Structs", "Choices", "Fields", "Deleted fields") and the error messages of the
validator; independent of the algorithm. A type is identified by the namespace of its file and its name, compared
without regard to case conventions (`Identifier.same`).
-/

namespace Typical

/-- What the loader guarantees: no two files with the same namespace, imports with distinct names whose namespaces
are known; `deleted` is a set. -/
structure Schemas.Loaded (S : Schemas) : Prop where
  namespaces : (S.map (fun e => e.1.key)).Nodup
  importNames : ∀ e ∈ S, (e.2.imports.map (fun i => i.1.snakeCase)).Nodup
  resolved : ∀ e ∈ S, ∀ i ∈ e.2.imports, i.2.namespace_ ≠ none
  deleted : ∀ e ∈ S, ∀ d ∈ e.2.declarations, d.deleted.Nodup

/-- The file `s` with namespace `ns` declares `d`, and `k` identifies it. -/
def Schemas.Declares (S : Schemas) (k : List Str × Str) (ns : Namespace) (s : Schema) (d : Declaration) : Prop :=
  (ns, s) ∈ S ∧ d ∈ s.declarations ∧ k = (ns.key, d.name.snakeCase)

/-- The named type which a type expression mentions, through any number of array brackets. -/
inductive TypeVariant.Mentions : TypeVariant → Option Identifier → Identifier → Prop
  | custom (i n) : Mentions (.custom i n) i n
  | array {r t i n} : Mentions t i n → Mentions (.array r t) i n

/-- `k` identifies what `import.name` (or just `name`) refers to in a file. -/
def Schema.RefersTo (s : Schema) (ns : Namespace) (import_ : Option Identifier) (name : Identifier)
    (k : List Str × Str) : Prop :=
  match import_ with
  | none => k = (ns.key, name.snakeCase)
  | some i => ∃ e ∈ s.imports, e.1.snakeCase = i.snakeCase ∧ ∃ n, e.2.namespace_ = some n ∧ k = (n.key, name.snakeCase)

/-- A declaration contains another one: some field's type mentions it. -/
def Schemas.Contains (S : Schemas) (k k' : List Str × Str) : Prop :=
  ∃ ns s d, S.Declares k ns s d ∧ ∃ f ∈ d.fields, ∃ i n, f.type.variant.Mentions i n ∧ s.RefersTo ns i n k'

/-- A well-formed declaration. -/
structure Schemas.DeclarationOk (S : Schemas) (ns : Namespace) (s : Schema) (d : Declaration) : Prop where
  /-- Field names are distinct. -/
  names : (d.fields.map (fun f => f.name.snakeCase)).Nodup
  /-- The indices of fields and the deleted ones are distinct, and together are `0, 1, …, n - 1` in some order. -/
  indices : (d.fields.map (fun f => f.index) ++ d.deleted).Perm (List.range (d.fields.length + d.deleted.length))
  /-- Indices are at most `2^62 - 1`. -/
  bound : ∀ f ∈ d.fields, f.index ≤ 2 ^ 62 - 1
  /-- Named types exist. -/
  types : ∀ f ∈ d.fields, ∀ i n, f.type.variant.Mentions i n →
    ∃ k, s.RefersTo ns i n k ∧ ∃ ns' s' d', S.Declares k ns' s' d'

/-- Well-formed schemas. -/
structure Schemas.WellFormed (S : Schemas) : Prop where
  /-- Names of declarations are distinct within a file. -/
  names : ∀ e ∈ S, (e.2.declarations.map (fun d => d.name.snakeCase)).Nodup
  /-- Declarations are well-formed. -/
  declarations : ∀ e ∈ S, ∀ d ∈ e.2.declarations, S.DeclarationOk e.1 e.2 d
  /-- No type contains itself. -/
  acyclic : ∀ k, ¬ Relation.TransGen S.Contains k k

/-- A sequence of types, each containing the next. -/
def IsWalk (E : List Str × Str → List Str × Str → Prop) : List (List Str × Str) → Prop
  | [] => True
  | [_] => True
  | a :: b :: l => E a b ∧ IsWalk E (b :: l)

end Typical
