import Verif.Spec.View

/-!
# Specification: the part of a writer's content which a reader of another type is shown

README lines 605-625. Structs: the fields the reader knows, in the order of its declaration. Choices: the
recognised fields up to the first one which is not optional for the reader.
-/

namespace Typical

/-- Does the reader stop at the field with this index (known and not optional)? -/
def Fields.stopsAt (fs : Fields) (i : Nat) : Bool :=
  match fs.lookup i with
  | some (.optional, _) => false
  | some _ => true
  | none => false

mutual
/-- What a reader of type `c` is shown of a content. -/
def CTy.project : CTy → Tree → Tree
  | .array c => fun | .array l => .array (l.map (CTy.project c)) | t => t
  | .struct fs => fun | .fields l => .fields (Fields.projectStruct fs l) | t => t
  | .choice fs => fun
    | .fields l =>
      .fields ((Spec.upTo (fun p => fs.stopsAt p.1) (l.filter (fun p => fs.indices.contains p.1))).map
        (fun p => (p.1, Fields.projectAt fs p.1 p.2)))
    | t => t
  | .bytes => fun t => t
  | .string => fun t => t
  | .units => fun t => t
  | .scalars _ => fun t => t

def Ty.project : Ty → Tree → Tree
  | .unit => fun t => t
  | .scalar _ => fun t => t
  | .comp c => CTy.project c

/-- For each field of the reader, in order, the first value written for its index. -/
def Fields.projectStruct : Fields → List (Nat × Tree) → List (Nat × Tree)
  | .nil, _ => []
  | .cons i _ t rest, l =>
    (match l.lookup i with
     | none => []
     | some tree => [(i, Ty.project t tree)]) ++ Fields.projectStruct rest l

/-- What is shown of the value of the field with the given index. -/
def Fields.projectAt : Fields → Nat → Tree → Tree
  | .nil, _, tree => tree
  | .cons i _ t rest, j, tree => if j = i then Ty.project t tree else Fields.projectAt rest j tree
end

end Typical
