import Verif.Spec.Compat

/-!
# Specification: exactly when a reader understands all messages of a writer

`Productive`: messages exist. `Readable`: like `CanRead`, but weaker where a struct is read as a choice: the reader of a choice
stops at the first field without fallback, so it never looks at the fields after one which is always written.
-/

namespace Typical

mutual
/-- Every choice, at any depth, has a required field (README line 238: the others need a fallback). -/
def CTy.Productive : CTy → Prop
  | .array c => CTy.Productive c
  | .struct fs => Fields.Productive fs
  | .choice fs => (∃ i, fs.Has i (· = .required)) ∧ Fields.Productive fs
  | _ => True

def Ty.Productive : Ty → Prop
  | .comp c => CTy.Productive c
  | _ => True

def Fields.Productive : Fields → Prop
  | .nil => True
  | .cons _ _ t rest => Ty.Productive t ∧ Fields.Productive rest
end

mutual
/-- Every message of a writer of type `w` can be read by a reader of type `r`. -/
def CTy.Readable : CTy → CTy → Prop
  | .bytes => fun r => r = .bytes
  | .string => fun r => r = .string
  | .units => fun r => r = .units
  | .scalars s => fun r => r = .scalars s
  | .array c => fun | .array c' => CTy.Readable c c' | _ => False
  | .struct fs => fun
    | .struct gs => Fields.ReadableShared fs gs ∧ ∀ i, gs.Has i (· = .required) → fs.Has i (· ≠ .optional)
    | .choice gs => Fields.ReadableUntil fs gs
    | _ => False
  | .choice fs => fun
    | .struct gs => Fields.ReadableShared fs gs ∧
        ∀ i, gs.Has i (· = .required) → ∀ j, fs.Has j (· = .required) → j = i
    | .choice gs => Fields.ReadableShared fs gs ∧ ∀ i, fs.Has i (· = .required) → gs.Has i (· ≠ .optional)
    | _ => False

def Ty.Readable : Ty → Ty → Prop
  | .unit => fun r => r = .unit
  | .scalar s => fun r => r = .scalar s
  | .comp c => fun | .comp c' => CTy.Readable c c' | _ => False

/-- The reader can read the values of shared fields. -/
def Fields.ReadableShared : Fields → Fields → Prop
  | .nil, _ => True
  | .cons i _ t rest, gs =>
    (∀ r' t', gs.lookup i = some (r', t') → Ty.Readable t t') ∧ Fields.ReadableShared rest gs

/-- Going through the fields of the struct in order, the reader of the choice can read the values of shared ones, up to one
which is always written and which the reader knows as one without fallback. -/
def Fields.ReadableUntil : Fields → Fields → Prop
  | .nil, _ => False
  | .cons i r t rest, gs =>
    match gs.lookup i with
    | none => Fields.ReadableUntil rest gs
    | some (r', t') => Ty.Readable t t' ∧ ((r ≠ .optional ∧ r' ≠ .optional) ∨ Fields.ReadableUntil rest gs)
end

mutual
/-- Shared fields have values of the same shape, and no struct became a choice or vice versa, at all depths. -/
def CTy.SameKind : CTy → CTy → Prop
  | .bytes => fun r => r = .bytes
  | .string => fun r => r = .string
  | .units => fun r => r = .units
  | .scalars s => fun r => r = .scalars s
  | .array c => fun | .array c' => CTy.SameKind c c' | _ => False
  | .struct fs => fun | .struct gs => Fields.SameKind fs gs | _ => False
  | .choice fs => fun | .choice gs => Fields.SameKind fs gs | _ => False

def Ty.SameKind : Ty → Ty → Prop
  | .unit => fun r => r = .unit
  | .scalar s => fun r => r = .scalar s
  | .comp c => fun | .comp c' => CTy.SameKind c c' | _ => False

def Fields.SameKind : Fields → Fields → Prop
  | .nil, _ => True
  | .cons i _ t rest, gs => (∀ r' t', gs.lookup i = some (r', t') → Ty.SameKind t t') ∧ Fields.SameKind rest gs
end

end Typical
