import Verif.Spec.Denote
import Verif.Spec.Compat

/-!
# Specification: compatible versions of schemas

The rules of `/repo/README.md` lines 295-305, stated for declarations as they are written in schema files. `R` tells which declarations
of the new version are the successors of which declarations of the old version (their names, and those of their files, may differ).
-/

namespace Typical

/-- The field `f` of an old declaration, given the fields of the new one: it may be kept (perhaps with another name, another position
and another compatible rule; its type is the same, up to the declarations it refers to), or, unless required, it
may be removed. -/
def FieldKept (R : List Str × Str → List Str × Str → Prop) (ns ns' : Namespace) (s s' : Schema) (fs' : List Field) (f : Field) : Prop :=
  (∃ f' ∈ fs', f'.index = f.index ∧ f.rule.Compat f'.rule ∧ SameType R ns ns' s s' f.type.variant f'.type.variant) ∨
  (f.rule ≠ .required ∧ ∀ f' ∈ fs', f'.index ≠ f.index)

/-- A new version `d'` of a declaration `d`. -/
inductive NewVersion (R : List Str × Str → List Str × Str → Prop) (ns ns' : Namespace) (s s' : Schema) (d d' : Declaration) : Prop
  /-- Same kind; old fields are kept or removed; fields which are added are not required. -/
  | same : d.variant = d'.variant → (∀ f ∈ d.fields, FieldKept R ns ns' s s' d'.fields f) →
      (∀ f' ∈ d'.fields, (∃ f ∈ d.fields, f.index = f'.index) ∨ f'.rule ≠ .required) → NewVersion R ns ns' s s' d d'
  /-- A struct with a single field, which is required, becomes a choice, or vice versa. -/
  | converted (f f' : Field) : d.variant ≠ d'.variant → d.fields = [f] → d'.fields = [f'] → f.index = f'.index →
      f.rule = .required → f'.rule = .required → SameType R ns ns' s s' f.type.variant f'.type.variant →
      NewVersion R ns ns' s s' d d'

/-- All corresponding declarations are versions of each other in this sense. -/
def CompatibleSchemas (S S' : Schemas) (R : List Str × Str → List Str × Str → Prop) : Prop :=
  ∀ k k', R k k' → ∃ ns s d ns' s' d', S.Declares k ns s d ∧ S'.Declares k' ns' s' d' ∧ NewVersion R ns ns' s s' d d'

/-- A safe edit of one declaration, with the names of types left alone: for each old field there is a field with the same index, the same
type and a compatible rule, or the field was not required and there is no field with its index; fields with new indices are not required. -/
structure SafeEdit (d d' : Declaration) : Prop where
  variant : d'.variant = d.variant
  name : d'.name.snakeCase = d.name.snakeCase
  old : ∀ f ∈ d.fields, (∃ f' ∈ d'.fields, f'.index = f.index ∧ f.rule.Compat f'.rule ∧ f'.type.variant = f.type.variant) ∨
    (f.rule ≠ .required ∧ ∀ f' ∈ d'.fields, f'.index ≠ f.index)
  new : ∀ f' ∈ d'.fields, (∃ f ∈ d.fields, f.index = f'.index) ∨ f'.rule ≠ .required

/-- All declarations edited by a function. -/
def editSchemas (edit : Declaration → Declaration) (S : Schemas) : Schemas :=
  S.map (fun e => (e.1, { e.2 with declarations := e.2.declarations.map edit }))

end Typical
