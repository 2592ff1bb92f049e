import Verif.Front.Validator
import Verif.Spec.Schema
import Mathlib.Data.List.Dedup

/-!
# Specification: what is wrong with a set of schemas, and where

Each violation names the file and the range of the offending declaration, field or type expression. (The type of errors is that of the
model of the validator; the conditions are independent of it.)
-/

namespace Typical

/-- The type expression at `range` contains, at the position `r`, a reference `import_.name`. -/
inductive TypeVariant.MentionsAt : SourceRange → TypeVariant → SourceRange → Option Identifier → Identifier → Prop
  | custom (range i n) : MentionsAt range (.custom i n) range i n
  | array {range inner t r i n} : MentionsAt inner t r i n → MentionsAt range (.array inner t) r i n

/-- The element `a` of the list is preceded by an element `b` with `p b`. -/
def Preceded {α : Type} (l : List α) (a : α) (p : α → Prop) : Prop := ∃ pre post, l = pre ++ a :: post ∧ ∃ b ∈ pre, p b

/-- Something is wrong in the file `s` with namespace `ns` (cycles apart). -/
inductive Schemas.Violation (S : Schemas) (ns : Namespace) (s : Schema) : VErr → Prop
  /-- A declaration has the name of an earlier one. -/
  | duplicateDeclaration (d : Declaration) : Preceded s.declarations d (fun b => b.name.snakeCase = d.name.snakeCase) →
      Schemas.Violation S ns s (.duplicateDeclaration ns d.sourceRange d.name)
  /-- A field has the name of an earlier one. -/
  | duplicateFieldName (d : Declaration) (f : Field) : d ∈ s.declarations →
      Preceded d.fields f (fun b => b.name.snakeCase = f.name.snakeCase) →
      Schemas.Violation S ns s (.duplicateFieldName ns f.sourceRange f.name)
  /-- A field has the index of an earlier one. -/
  | duplicateFieldIndex (d : Declaration) (f : Field) : d ∈ s.declarations → Preceded d.fields f (fun b => b.index = f.index) →
      Schemas.Violation S ns s (.duplicateFieldIndex ns f.sourceRange f.index)
  /-- A field has a deleted index. -/
  | deletedIndex (d : Declaration) (f : Field) : d ∈ s.declarations → f ∈ d.fields → f.index ∈ d.deleted →
      Schemas.Violation S ns s (.deletedIndex ns f.sourceRange f.index)
  /-- The index of a field is too large for field headers. -/
  | indexTooLarge (d : Declaration) (f : Field) : d ∈ s.declarations → f ∈ d.fields → 2 ^ 62 - 1 < f.index →
      Schemas.Violation S ns s (.indexTooLarge ns f.sourceRange f.index)
  /-- An index is neither used nor deleted, although it is smaller than the number of used and deleted indices. -/
  | indexGap (d : Declaration) (i : Nat) : d ∈ s.declarations →
      i < (d.fields.map (fun f => f.index)).dedup.length + d.deleted.length → (∀ f ∈ d.fields, f.index ≠ i) → i ∉ d.deleted →
      Schemas.Violation S ns s (.indexGap ns d.sourceRange i)
  /-- A type refers to an import which does not exist. -/
  | noImport (d : Declaration) (f : Field) (r : SourceRange) (i n : Identifier) : d ∈ s.declarations → f ∈ d.fields →
      f.type.variant.MentionsAt f.type.sourceRange r (some i) n → (∀ e ∈ s.imports, e.1.snakeCase ≠ i.snakeCase) →
      Schemas.Violation S ns s (.noImport ns r i)
  /-- A type refers to a declaration which does not exist. -/
  | noType (d : Declaration) (f : Field) (r : SourceRange) (i : Option Identifier) (n : Identifier) (k : List Str × Str) :
      d ∈ s.declarations → f ∈ d.fields → f.type.variant.MentionsAt f.type.sourceRange r i n → s.RefersTo ns i n k →
      (∀ ns' s' d', ¬ S.Declares k ns' s' d') → Schemas.Violation S ns s (.noType ns r i n)

end Typical
