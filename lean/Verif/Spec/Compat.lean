import Verif.Types

/-!
# Specification: which readers understand which writers

`Shape`: shared fields have values of the same shape (nothing is said about rules).
`CanRead`: the direction-wise conditions of `/repo/README.md` lines 605-625.
`Compat`: the compatibility relation of lines 295-305. `Change`: a single small change.
-/

namespace Typical

/-- Is there a field with this index and with a rule satisfying `p`? -/
def Fields.Has (fs : Fields) (i : Nat) (p : Rule → Prop) : Prop :=
  ∃ r t, fs.lookup i = some (r, t) ∧ p r

mutual
/-- Fields known to both sides have values of the same shape, at all depths. -/
def CTy.Shape : CTy → CTy → Prop
  | .bytes => fun r => r = .bytes
  | .string => fun r => r = .string
  | .units => fun r => r = .units
  | .scalars s => fun r => r = .scalars s
  | .array c => fun | .array c' => CTy.Shape c c' | _ => False
  | .struct fs => fun
    | .struct gs => Fields.Shape fs gs
    | .choice gs => Fields.Shape fs gs
    | _ => False
  | .choice fs => fun
    | .struct gs => Fields.Shape fs gs
    | .choice gs => Fields.Shape fs gs
    | _ => False

/-- `Shape` for field types. -/
def Ty.Shape : Ty → Ty → Prop
  | .unit => fun r => r = .unit
  | .scalar s => fun r => r = .scalar s
  | .comp c => fun | .comp c' => CTy.Shape c c' | _ => False

/-- `Shape` for the fields of declarations. -/
def Fields.Shape : Fields → Fields → Prop
  | .nil, _ => True
  | .cons i _ t rest, gs =>
    (∀ r' t', gs.lookup i = some (r', t') → Ty.Shape t t') ∧ Fields.Shape rest gs
end

mutual
/-- `CanRead w r`: the rules guarantee that a reader of type `r` can read the messages of a writer of
type `w`.

Struct to struct: every field required by the reader is always written (required or asymmetric).
Choice to choice: every field which may end a chain (required for the writer) is known to the reader
as a field without fallback (required or asymmetric).
Struct to choice: some field which is always written is known to the reader as one without fallback.
Choice to struct: only the one field required by the reader, if any, is required for the writer. -/
def CTy.CanRead : CTy → CTy → Prop
  | .bytes => fun r => r = .bytes
  | .string => fun r => r = .string
  | .units => fun r => r = .units
  | .scalars s => fun r => r = .scalars s
  | .array c => fun | .array c' => CTy.CanRead c c' | _ => False
  | .struct fs => fun
    | .struct gs => Fields.CanReadShared fs gs ∧
        ∀ i, gs.Has i (· = .required) → fs.Has i (· ≠ .optional)
    | .choice gs => Fields.CanReadShared fs gs ∧
        ∃ i, fs.Has i (· ≠ .optional) ∧ gs.Has i (· ≠ .optional)
    | _ => False
  | .choice fs => fun
    | .struct gs => Fields.CanReadShared fs gs ∧
        ∀ i, gs.Has i (· = .required) → ∀ j, fs.Has j (· = .required) → j = i
    | .choice gs => Fields.CanReadShared fs gs ∧
        ∀ i, fs.Has i (· = .required) → gs.Has i (· ≠ .optional)
    | _ => False

/-- `CanRead` for field types. -/
def Ty.CanRead : Ty → Ty → Prop
  | .unit => fun r => r = .unit
  | .scalar s => fun r => r = .scalar s
  | .comp c => fun | .comp c' => CTy.CanRead c c' | _ => False

/-- The reader can read the values of shared fields. -/
def Fields.CanReadShared : Fields → Fields → Prop
  | .nil, _ => True
  | .cons i _ t rest, gs =>
    (∀ r' t', gs.lookup i = some (r', t') → Ty.CanRead t t') ∧ Fields.CanReadShared rest gs
end

/-- Rules which a field may have before and after a single change: equal, or one is asymmetric. -/
def Rule.Compat (r r' : Rule) : Prop := r = r' ∨ r = .asymmetric ∨ r' = .asymmetric

mutual
/-- The compatibility relation: fields may be reordered (only indices matter), optional and asymmetric
fields may be present on one side only, asymmetric fields may be converted; a struct with exactly
one field, which is required, may become a choice with just that field and vice versa. At all depths. -/
def CTy.Compat : CTy → CTy → Prop
  | .bytes => fun b => b = .bytes
  | .string => fun b => b = .string
  | .units => fun b => b = .units
  | .scalars s => fun b => b = .scalars s
  | .array c => fun | .array c' => CTy.Compat c c' | _ => False
  | .struct fs => fun
    | .struct gs => Fields.CompatShared fs gs ∧ Fields.NewNotRequired fs gs
    | .choice gs => ∃ i t t', fs = .cons i .required t .nil ∧ gs = .cons i .required t' .nil ∧
        Fields.CompatShared fs gs
    | _ => False
  | .choice fs => fun
    | .struct gs => ∃ i t t', fs = .cons i .required t .nil ∧ gs = .cons i .required t' .nil ∧
        Fields.CompatShared fs gs
    | .choice gs => Fields.CompatShared fs gs ∧ Fields.NewNotRequired fs gs
    | _ => False

/-- `Compat` for field types. -/
def Ty.Compat : Ty → Ty → Prop
  | .unit => fun b => b = .unit
  | .scalar s => fun b => b = .scalar s
  | .comp c => fun | .comp c' => CTy.Compat c c' | _ => False

/-- Fields on the left are compatible with those of the same index on the right; those without
counterpart are not required. -/
def Fields.CompatShared : Fields → Fields → Prop
  | .nil, _ => True
  | .cons i r t rest, gs =>
    (match gs.lookup i with
     | none => r ≠ .required
     | some (r', t') => r.Compat r' ∧ Ty.Compat t t') ∧ Fields.CompatShared rest gs

/-- Fields on the right without counterpart on the left are not required. -/
def Fields.NewNotRequired (fs : Fields) : Fields → Prop
  | .nil => True
  | .cons i r _ rest => (fs.lookup i = none → r ≠ .required) ∧ Fields.NewNotRequired fs rest
end

mutual
/-- A single change to a type, directly or inside a field or array. -/
inductive CTy.Change : CTy → CTy → Prop
  | array {c c'} : CTy.Change c c' → CTy.Change (.array c) (.array c')
  | struct {fs gs} : Fields.Change fs gs → CTy.Change (.struct fs) (.struct gs)
  | choice {fs gs} : Fields.Change fs gs → CTy.Change (.choice fs) (.choice gs)
  | toChoice (i t) :
      CTy.Change (.struct (.cons i .required t .nil)) (.choice (.cons i .required t .nil))
  | toStruct (i t) :
      CTy.Change (.choice (.cons i .required t .nil)) (.struct (.cons i .required t .nil))

/-- A single change to the fields of a declaration. -/
inductive Fields.Change : Fields → Fields → Prop
  | tail {fs gs} (i r t) : Fields.Change fs gs → Fields.Change (.cons i r t fs) (.cons i r t gs)
  | swap (i r t j r' t' fs) :
      Fields.Change (.cons i r t (.cons j r' t' fs)) (.cons j r' t' (.cons i r t fs))
  | add (i r t fs) : r ≠ .required → Fields.Change fs (.cons i r t fs)
  | remove (i r t fs) : r ≠ .required → Fields.Change (.cons i r t fs) fs
  | fromAsymmetric (i r t fs) : Fields.Change (.cons i .asymmetric t fs) (.cons i r t fs)
  | toAsymmetric (i r t fs) : Fields.Change (.cons i r t fs) (.cons i .asymmetric t fs)
  | nested {c c'} (i r fs) :
      CTy.Change c c' → Fields.Change (.cons i r (.comp c) fs) (.cons i r (.comp c') fs)
end

/-- Declarations: structs and choices. -/
def CTy.IsUserDefined : CTy → Prop
  | .struct _ => True
  | .choice _ => True
  | _ => False

end Typical
