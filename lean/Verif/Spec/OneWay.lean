import Verif.Spec.Exact
import Verif.Spec.Evolution

/-!
# Specification: one-way compatibility of schemas

`/repo/README.md` lines 605-625: what a writer has to write, and what a reader insists on. Stated for declarations as they are written in schema files; `S` is
the version of the writer and `S'` is the version of the reader, which may be older or newer, and any number of changes away.
-/

namespace Typical

/-- Readers of a struct insist on required fields; writers of a struct write required and asymmetric ones. Readers of a choice insist on a field which they know as required or
asymmetric; writers of a choice write a required one in the end. -/
def Insists (d d' : Declaration) : Prop :=
  match d.variant, d'.variant with
  | .struct, .struct => ∀ f' ∈ d'.fields, f'.rule = .required → ∃ f ∈ d.fields, f.index = f'.index ∧ f.rule ≠ .optional
  | .choice, .choice => ∀ f ∈ d.fields, f.rule = .required → ∃ f' ∈ d'.fields, f'.index = f.index ∧ f'.rule ≠ .optional
  | .struct, .choice => ∃ f ∈ d.fields, ∃ f' ∈ d'.fields, f'.index = f.index ∧ f.rule ≠ .optional ∧ f'.rule ≠ .optional
  | .choice, .struct => ∀ f' ∈ d'.fields, f'.rule = .required → ∀ f ∈ d.fields, f.rule = .required → f.index = f'.index

/-- All related declarations meet this, and fields which both versions know have the same types, up to `R`. -/
def ReadableSchemas (S S' : Schemas) (R : List Str × Str → List Str × Str → Prop) : Prop :=
  ∀ k k', R k k' → ∃ ns s d ns' s' d', S.Declares k ns s d ∧ S'.Declares k' ns' s' d' ∧ Insists d d' ∧
    ∀ f ∈ d.fields, ∀ f' ∈ d'.fields, f'.index = f.index → SameType R ns ns' s s' f.type.variant f'.type.variant

/-- No choice became a struct (for the reader). -/
def ChoicesStay (S S' : Schemas) (R : List Str × Str → List Str × Str → Prop) : Prop :=
  ∀ k k', R k k' → ∀ {ns s d ns' s' d'}, S.Declares k ns s d → S'.Declares k' ns' s' d' → d.variant = .choice → d'.variant = .choice

end Typical
