import Verif.Front.Format
import Verif.Spec.Grammar
import Verif.Spec.Tokens

/-!
# Specification: equal meaning of schemas, and what can be formatted

Two schemas mean the same if they differ only in source ranges and in the style of names (`fooBar`, `foo_bar` and `FooBar`
are the same name: `Identifier.same`, see C38). The file an import is resolved to is not part of the text.
-/

namespace Typical

/-- Equal names. -/
def SameName (a b : Identifier) : Prop := a.same b = true

/-- Equal names or both none. -/
def SameImportName : Option Identifier → Option Identifier → Prop
  | none, none => True
  | some a, some b => SameName a b
  | _, _ => False

/-- Equal types. -/
def SameFieldType : TypeVariant → TypeVariant → Prop
  | .array _ a, .array _ b => SameFieldType a b
  | .custom i m, .custom j n => SameImportName i j ∧ SameName m n
  | .bool, .bool => True
  | .bytes, .bytes => True
  | .f64, .f64 => True
  | .s64, .s64 => True
  | .string, .string => True
  | .u64, .u64 => True
  | .unit, .unit => True
  | _, _ => False

/-- `R` holds between the elements of two lists at equal positions, and the lists have equal lengths. -/
inductive Each {α β : Type} (R : α → β → Prop) : List α → List β → Prop
  | nil : Each R [] []
  | cons {a b as bs} : R a b → Each R as bs → Each R (a :: as) (b :: bs)

/-- `f'` is `f`, except that each paragraph `p` of its comment became `g p`. -/
structure SameField (g : Str → Str) (f f' : Field) : Prop where
  comment : f'.comment = f.comment.map g
  rule : f'.rule = f.rule
  name : SameName f.name f'.name
  type : SameFieldType f.type.variant f'.type.variant
  index : f'.index = f.index

/-- `d'` is `d`, except that each paragraph `p` of a comment became `g p` at the left margin and `h p` in fields. -/
structure SameDecl (g h : Str → Str) (d d' : Declaration) : Prop where
  comment : d'.comment = d.comment.map g
  variant : d'.variant = d.variant
  name : SameName d.name d'.name
  fields : Each (SameField h) d.fields d'.fields
  deleted : d'.deleted = d.deleted

/-- Equal imports. -/
def SameImport (i i' : Identifier × Import) : Prop := SameName i.1 i'.1 ∧ i'.2.path = i.2.path

/-- `s'` is `s`, except that each paragraph `p` of a comment became `g p` at the left margin and `h p` in fields. -/
structure SameSchema (g h : Str → Str) (s s' : Schema) : Prop where
  comment : s'.comment = s.comment.map g
  imports : Each SameImport s.imports s'.imports
  declarations : Each (SameDecl g h) s.declarations s'.declarations

/-- The widths to which comments are filled. -/
def marginWidth : Nat := 77
def fieldWidth : Nat := 73

/-- Filling a paragraph gives at least one line and no blank lines. -/
def Fillable (T : CharTable) (F : Nat → Str → Str) (w : Nat) (p : Str) : Prop :=
  strLines (F w p) ≠ [] ∧ ∀ l ∈ strLines (F w p), trim T l ≠ []

/-- The lines of the filled paragraph, joined again by spaces. -/
def refill (T : CharTable) (F : Nat → Str → Str) (w : Nat) (p : Str) : Str :=
  joinWith [' '] ((strLines (F w p)).map (trim T))

/-- The name which an import gets without `as` is the given one. -/
def NamedAfterFile (T : CharTable) (name : Identifier) (path : Str) : Prop :=
  ∃ stem, fileStem path = some stem ∧ SameName (Identifier.ofStr T stem) name

/-- The lower-case form of the name is an identifier (and not a keyword), and it is the same name. -/
def SnakeOk (T : CharTable) (n : Identifier) : Prop :=
  PlainName T n.snakeCase ∧ SameName n (Identifier.ofStr T n.snakeCase)

/-- The capitalised form of the name is an identifier (and not a keyword), and it is the same name. -/
def PascalOk (T : CharTable) (n : Identifier) : Prop :=
  PlainName T (n.pascalCase T) ∧ SameName n (Identifier.ofStr T (n.pascalCase T))

/-- Conditions `N` on the names used for imports and `M` on the names used for types. -/
def TypeNames (N M : Identifier → Prop) : TypeVariant → Prop
  | .array _ a => TypeNames N M a
  | .custom i n => (∀ m, i = some m → N m) ∧ M n
  | _ => True

/-- The conditions for formatting to preserve a schema, for given conditions `N` on the names of fields and imports and `M`
on the names of types: integers have 64 bits, paths contain no quotes, imports have distinct names and are in
order, deleted indices are in order (all this holds of every parsed schema); comments can be filled. -/
structure Formattable (T : CharTable) (F : Nat → Str → Str) (N M : Identifier → Prop) (s : Schema) : Prop where
  comment : ∀ p ∈ s.comment, Fillable T F marginWidth p
  paths : ∀ i ∈ s.imports, '\'' ∉ i.2.path
  imports : ∀ i ∈ s.imports, NamedAfterFile T i.1 i.2.path ∨ N i.1
  sorted : s.imports.Pairwise (fun a b => strBefore a.1.snakeCase b.1.snakeCase = true)
  declarations : ∀ d ∈ s.declarations, M d.name ∧ (∀ p ∈ d.comment, Fillable T F marginWidth p) ∧
    (∀ n ∈ d.deleted, n < 2 ^ 64) ∧ d.deleted.Pairwise (· < ·) ∧
    ∀ f ∈ d.fields, N f.name ∧ (∀ p ∈ f.comment, Fillable T F fieldWidth p) ∧ f.index < 2 ^ 64 ∧
      TypeNames N M f.type.variant

/-- Conditions on the names of a schema: `N` on those of fields and on names which imports are given or referred to by,
`M` on those of types. (The name of an import which is named after its file is not printed.) -/
structure NamesOk (T : CharTable) (N M : Identifier → Prop) (s : Schema) : Prop where
  imports : ∀ i ∈ s.imports, NamedAfterFile T i.1 i.2.path ∨ N i.1
  declarations : ∀ d ∈ s.declarations, M d.name
  fields : ∀ d ∈ s.declarations, ∀ f ∈ d.fields, N f.name ∧ TypeNames N M f.type.variant

/-- All paragraphs of comments satisfy `P` at the width to which they are filled. -/
structure CommentsOk (P : Nat → Str → Prop) (s : Schema) : Prop where
  schema : ∀ p ∈ s.comment, P marginWidth p
  declarations : ∀ d ∈ s.declarations, ∀ p ∈ d.comment, P marginWidth p
  fields : ∀ d ∈ s.declarations, ∀ f ∈ d.fields, ∀ p ∈ f.comment, P fieldWidth p

end Typical
