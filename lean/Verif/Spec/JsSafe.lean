import Verif.Spec.Wire

/-!
# Specification: contents on which the TypeScript and Rust readers are meant to agree

`JsSafe`: what JavaScript cannot represent faithfully does not occur. `Once`: no struct contains a field it
recognises twice (no writer produces that, see `CTy.once_tree`).
-/

namespace Typical

mutual
/-- No string begins with a byte order mark (U+FEFF), which `TextDecoder` removes, and no array of
`Unit`s has `2^32` elements or more, which JavaScript arrays cannot have. -/
def Tree.JsSafe : Tree → Prop
  | .string u => ¬ [0xEF, 0xBB, 0xBF] <+: u.bytes
  | .units n => n.toNat < 2 ^ 32
  | .array l => Tree.JsSafeElems l
  | .fields l => Tree.JsSafeFields l
  | .unit => True
  | .scalar _ _ => True
  | .bytes _ => True
  | .scalars _ _ => True

def Tree.JsSafeElems : List Tree → Prop
  | [] => True
  | t :: l => t.JsSafe ∧ Tree.JsSafeElems l

def Tree.JsSafeFields : List (Nat × Tree) → Prop
  | [] => True
  | (_, t) :: l => t.JsSafe ∧ Tree.JsSafeFields l
end

mutual
/-- At all depths, a struct contains each field which the reader recognises at most once. -/
def CTy.Once : CTy → Tree → Prop
  | .bytes => fun _ => True
  | .string => fun _ => True
  | .units => fun _ => True
  | .scalars _ => fun _ => True
  | .array c => fun | .array l => ∀ t ∈ l, CTy.Once c t | _ => True
  | .struct fs => fun
    | .fields l => (∀ i ∈ fs.indices, (l.filter (fun p => p.1 == i)).length ≤ 1) ∧
        ∀ p ∈ l, Fields.OnceAt fs p.1 p.2
    | _ => True
  | .choice fs => fun
    | .fields l => ∀ p ∈ l, Fields.OnceAt fs p.1 p.2
    | _ => True

def Ty.Once : Ty → Tree → Prop
  | .unit => fun _ => True
  | .scalar _ => fun _ => True
  | .comp c => CTy.Once c

/-- `Once` for the value of the field with the given index, if the reader recognises it. -/
def Fields.OnceAt : Fields → Nat → Tree → Prop
  | .nil, _, _ => True
  | .cons i _ t rest, j, tree => (j = i → Ty.Once t tree) ∧ Fields.OnceAt rest j tree
end

end Typical
