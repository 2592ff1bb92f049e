import Verif.Spec.Wire

/-!
# Specification: the part of a message's content which a reader of the same type is shown

README lines 259-262, 605-625: a reader of a choice is not given the fallback of an asymmetric field. Everything else
is shown.
-/

namespace Typical

/-- The beginning of a list up to and including the first element satisfying `p`. -/
def Spec.upTo {α : Type} (p : α → Bool) : List α → List α
  | [] => []
  | a :: l => if p a then [a] else a :: Spec.upTo p l

/-- Is the field with this index asymmetric? -/
def Fields.isAsymmetric (fs : Fields) (i : Nat) : Bool :=
  match fs.lookup i with
  | some (.asymmetric, _) => true
  | _ => false

mutual
/-- What a reader of type `c` is shown of a content. -/
def CTy.view : CTy → Tree → Tree
  | .array c => fun | .array l => .array (l.map (CTy.view c)) | t => t
  | .struct fs => fun | .fields l => .fields (l.map (fun p => (p.1, Fields.viewAt fs p.1 p.2))) | t => t
  | .choice fs => fun
    | .fields l => .fields ((Spec.upTo (fun p => fs.isAsymmetric p.1) l).map
        (fun p => (p.1, Fields.viewAt fs p.1 p.2)))
    | t => t
  | .bytes => fun t => t
  | .string => fun t => t
  | .units => fun t => t
  | .scalars _ => fun t => t

def Ty.view : Ty → Tree → Tree
  | .unit => fun t => t
  | .scalar _ => fun t => t
  | .comp c => CTy.view c

/-- What is shown of the value of the field with the given index. -/
def Fields.viewAt : Fields → Nat → Tree → Tree
  | .nil, _, tree => tree
  | .cons i _ t rest, j, tree => if j = i then Ty.view t tree else Fields.viewAt rest j tree
end

mutual
/-- No choice, at any depth, has an asymmetric field. -/
def CTy.NoAsymChoice : CTy → Prop
  | .array c => CTy.NoAsymChoice c
  | .struct fs => Fields.NoAsymChoice fs
  | .choice fs => (∀ i, ¬ fs.HasRuleAt i .asymmetric) ∧ Fields.NoAsymChoice fs
  | _ => True

def Ty.NoAsymChoice : Ty → Prop
  | .comp c => CTy.NoAsymChoice c
  | _ => True

def Fields.NoAsymChoice : Fields → Prop
  | .nil => True
  | .cons _ _ t rest => Ty.NoAsymChoice t ∧ Fields.NoAsymChoice rest

/-- The declaration contains a field with this index and rule. -/
def Fields.HasRuleAt : Fields → Nat → Rule → Prop
  | .nil, _, _ => False
  | .cons i r _ rest, j, r' => (i = j ∧ r = r') ∨ Fields.HasRuleAt rest j r'
end

end Typical
