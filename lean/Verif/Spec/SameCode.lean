import Verif.Spec.Format
import Verif.Front.Names

/-!
# Specification: schemas which differ in nothing that the generated code depends on

Two schemas may differ in source ranges, comments, deleted indices, the paths of imports (if they lead to the same
files), and in the style of names.
-/

namespace Typical

/-- The names are the same, and so are their three forms. -/
structure SameForms (T : CharTable) (a b : Identifier) : Prop where
  snake : a.snakeCase = b.snakeCase
  camel : a.camelCase T = b.camelCase T
  pascal : a.pascalCase T = b.pascalCase T

/-- The same type. -/
inductive SameTypeForms (T : CharTable) : TypeVariant → TypeVariant → Prop
  | array {r r' a b} : SameTypeForms T a b → SameTypeForms T (.array r a) (.array r' b)
  | bare {m n} : SameForms T m n → SameTypeForms T (.custom none m) (.custom none n)
  | qualified {i j m n} : SameName i j → SameForms T m n → SameTypeForms T (.custom (some i) m) (.custom (some j) n)
  | bool : SameTypeForms T .bool .bool
  | bytes : SameTypeForms T .bytes .bytes
  | f64 : SameTypeForms T .f64 .f64
  | s64 : SameTypeForms T .s64 .s64
  | string : SameTypeForms T .string .string
  | u64 : SameTypeForms T .u64 .u64
  | unit : SameTypeForms T .unit .unit

/-- The same field. -/
structure SameFieldForms (T : CharTable) (f f' : Field) : Prop where
  rule : f'.rule = f.rule
  name : SameForms T f.name f'.name
  type : SameTypeForms T f.type.variant f'.type.variant
  index : f'.index = f.index

/-- The same declaration. -/
structure SameDeclForms (T : CharTable) (d d' : Declaration) : Prop where
  variant : d'.variant = d.variant
  name : SameForms T d.name d'.name
  fields : Each (SameFieldForms T) d.fields d'.fields

/-- The same import: it has the same name, and leads to the same file. -/
def SameTarget (i i' : Identifier × Import) : Prop := SameName i.1 i'.1 ∧ i'.2.namespace_ = i.2.namespace_

/-- The same schema as far as generated code is concerned. -/
structure SameCode (T : CharTable) (s s' : Schema) : Prop where
  imports : Each SameTarget s.imports s'.imports
  declarations : Each (SameDeclForms T) s.declarations s'.declarations

/-- The same files. -/
def SameFiles (T : CharTable) (S S' : Schemas) : Prop := Each (fun e e' => e'.1 = e.1 ∧ SameCode T e.2 e'.2) S S'

end Typical
