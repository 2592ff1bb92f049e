import Verif.Spec.Schema
import Verif.Types
import Mathlib.Data.List.Forall2

/-!
# Specification: the wire type of a declaration

The wire type of a declaration keeps what determines the generated encoders and decoders: the kind of each
declaration, the index, rule and type of each field, and the order of fields. References are unfolded; all names are gone.
-/

namespace Typical

/-- The type of an array, from the type of its elements. -/
def arrayOf : Ty → CTy
  | .unit => .units
  | .scalar s => .scalars s
  | .comp c => .array c

mutual
/-- The declaration identified by `k` has the wire type `c`. -/
inductive Schemas.Denotes (S : Schemas) : List Str × Str → CTy → Prop
  | struct {k ns s d fs} : S.Declares k ns s d → d.variant = .struct → Schemas.DenotesFields S ns s d.fields fs →
    Schemas.Denotes S k (.struct fs)
  | choice {k ns s d fs} : S.Declares k ns s d → d.variant = .choice → Schemas.DenotesFields S ns s d.fields fs →
    Schemas.Denotes S k (.choice fs)
/-- Fields which occur in the file `s`. -/
inductive Schemas.DenotesFields (S : Schemas) : Namespace → Schema → List Field → Fields → Prop
  | nil {ns s} : Schemas.DenotesFields S ns s [] .nil
  | cons {ns s f t fs Fs} : Schemas.DenotesType S ns s f.type.variant t → Schemas.DenotesFields S ns s fs Fs →
    Schemas.DenotesFields S ns s (f :: fs) (.cons f.index f.rule t Fs)
/-- A type expression which occurs in the file `s`. -/
inductive Schemas.DenotesType (S : Schemas) : Namespace → Schema → TypeVariant → Ty → Prop
  | bool {ns s} : Schemas.DenotesType S ns s .bool (.scalar .bool)
  | f64 {ns s} : Schemas.DenotesType S ns s .f64 (.scalar .f64)
  | s64 {ns s} : Schemas.DenotesType S ns s .s64 (.scalar .s64)
  | u64 {ns s} : Schemas.DenotesType S ns s .u64 (.scalar .u64)
  | unit {ns s} : Schemas.DenotesType S ns s .unit .unit
  | bytes {ns s} : Schemas.DenotesType S ns s .bytes (.comp .bytes)
  | string {ns s} : Schemas.DenotesType S ns s .string (.comp .string)
  | array {ns s r inner t} : Schemas.DenotesType S ns s inner t →
    Schemas.DenotesType S ns s (.array r inner) (.comp (arrayOf t))
  | custom {ns s i n k c} : s.RefersTo ns i n k → Schemas.Denotes S k c →
    Schemas.DenotesType S ns s (.custom i n) (.comp c)
end

/-- Type expressions which differ only in names: `R` relates the types which named types refer to. -/
inductive SameType (R : List Str × Str → List Str × Str → Prop) (ns ns' : Namespace) (s s' : Schema) :
    TypeVariant → TypeVariant → Prop
  | bool : SameType R ns ns' s s' .bool .bool
  | f64 : SameType R ns ns' s s' .f64 .f64
  | s64 : SameType R ns ns' s s' .s64 .s64
  | u64 : SameType R ns ns' s s' .u64 .u64
  | unit : SameType R ns ns' s s' .unit .unit
  | bytes : SameType R ns ns' s s' .bytes .bytes
  | string : SameType R ns ns' s s' .string .string
  | array {r r' t t'} : SameType R ns ns' s s' t t' → SameType R ns ns' s s' (.array r t) (.array r' t')
  | custom {i i' n n' k k'} : s.RefersTo ns i n k → s'.RefersTo ns' i' n' k' → R k k' →
    SameType R ns ns' s s' (.custom i n) (.custom i' n')

/-- `S` and `S'` differ only in names of types, fields, imports and files, comments, positions and deleted indices: there is
a correspondence `R` between their declarations, such that corresponding declarations are of the same kind and have
the same rules, indices and (up to `R`) types of fields, in the same order. -/
def SameUpToNames (S S' : Schemas) (R : List Str × Str → List Str × Str → Prop) : Prop :=
  ∀ k k', R k k' → ∃ ns s d ns' s' d', S.Declares k ns s d ∧ S'.Declares k' ns' s' d' ∧ d.variant = d'.variant ∧
    List.Forall₂ (fun f f' => f.index = f'.index ∧ f.rule = f'.rule ∧
      SameType R ns ns' s s' f.type.variant f'.type.variant) d.fields d'.fields

/-- Functions which rename everything: types, imports, namespaces (that is, files), fields; comments, paths, positions and
deleted indices may change too. -/
structure Renaming where
  typeName : Identifier → Identifier
  importName : Identifier → Identifier
  namespace_ : Namespace → Namespace
  fieldName : Identifier → Identifier
  comment : List Str → List Str
  path : Str → Str
  range : SourceRange → SourceRange
  deleted : List Nat → List Nat

/-- Equal names remain equal. -/
structure Renaming.Respects (ρ : Renaming) : Prop where
  typeName : ∀ a b : Identifier, a.snakeCase = b.snakeCase → (ρ.typeName a).snakeCase = (ρ.typeName b).snakeCase
  importName : ∀ a b : Identifier, a.snakeCase = b.snakeCase → (ρ.importName a).snakeCase = (ρ.importName b).snakeCase
  namespace_ : ∀ a b : Namespace, a.key = b.key → (ρ.namespace_ a).key = (ρ.namespace_ b).key

/-- Rename the types mentioned by a type expression. -/
def Renaming.typeVariant (ρ : Renaming) : TypeVariant → TypeVariant
  | .array r t => .array (ρ.range r) (ρ.typeVariant t)
  | .custom i n => .custom (i.map ρ.importName) (ρ.typeName n)
  | t => t

/-- Rename a field. -/
def Renaming.field (ρ : Renaming) (f : Field) : Field :=
  ⟨ρ.range f.sourceRange, ρ.comment f.comment, f.rule, ρ.fieldName f.name,
    ⟨ρ.range f.type.sourceRange, ρ.typeVariant f.type.variant⟩, f.index⟩

/-- Rename a declaration. -/
def Renaming.declaration (ρ : Renaming) (d : Declaration) : Declaration :=
  ⟨ρ.range d.sourceRange, ρ.comment d.comment, d.variant, ρ.typeName d.name, d.fields.map ρ.field, ρ.deleted d.deleted⟩

/-- Rename an import. -/
def Renaming.import_ (ρ : Renaming) (e : Identifier × Import) : Identifier × Import :=
  (ρ.importName e.1, ⟨ρ.range e.2.sourceRange, ρ.path e.2.path, e.2.namespace_.map ρ.namespace_⟩)

/-- Rename everything in a file. -/
def Renaming.schema (ρ : Renaming) (s : Schema) : Schema :=
  ⟨ρ.comment s.comment, s.imports.map ρ.import_, s.declarations.map ρ.declaration⟩

/-- Rename everything in all files. -/
def Renaming.schemas (ρ : Renaming) (S : Schemas) : Schemas := S.map (fun e => (ρ.namespace_ e.1, ρ.schema e.2))

end Typical
