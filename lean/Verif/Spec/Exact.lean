import Verif.Spec.Evolution

/-!
# Specification: versions of schemas whose types correspond

What the two versions of some schemas have in common, whatever was done to fields and rules: corresponding declarations are of the same kind, and fields with the same
index have the same type, up to the declarations which it refers to. `CompatibleSchemas` (`Spec/Evolution.lean`) are the documented rules.
-/

namespace Typical

/-- `R` relates declarations of the same kind. Shared fields have the same type, up to `R`. -/
def Corresponding (S S' : Schemas) (R : List Str × Str → List Str × Str → Prop) : Prop :=
  ∀ k k', R k k' → ∃ ns s d ns' s' d', S.Declares k ns s d ∧ S'.Declares k' ns' s' d' ∧ d.variant = d'.variant ∧
    ∀ f ∈ d.fields, ∀ f' ∈ d'.fields, f'.index = f.index → SameType R ns ns' s s' f.type.variant f'.type.variant

/-- Every choice has a required field: otherwise it has no messages (`C61_unproductive`). -/
def Schemas.HaveMessages (S : Schemas) : Prop :=
  ∀ e ∈ S, ∀ d ∈ e.2.declarations, d.variant = .choice → ∃ f ∈ d.fields, f.rule = .required

end Typical
