import Verif.Spec.Wire

/-!
# Specification: what remains of a content if its layout is cut off
-/

namespace Typical

/-- The size of the field is not in its header. -/
def Tree.Peeked (t : Tree) : Prop := t.isInteger = true ∧ (t.wire true).length ≠ 0 ∧ (t.wire true).length ≠ 8

/-- The part `q` of the field with index `i` and value `t` contains all of the header. The first byte of an integer whose size is not in
its header counts as part of the header. -/
def Tree.HeaderComplete (i : Nat) (t : Tree) (q : Bytes) : Prop :=
  (Spec.header i (t.wire true).length t.isInteger).length ≤ q.length ∧
    (t.Peeked → (Spec.header i (t.wire true).length t.isInteger).length < q.length)

/-- `Tree.Cut isField t p t'`: if only the part `p` of the layout of `t` is there, then `t'` is what it shows. Bytes and arrays become
shorter; fields are complete or missing, except that the last one can itself be cut off. A scalar, or a string in the middle of a
character, which is cut off shows only its bytes. -/
inductive Tree.Cut : Bool → Tree → Bytes → Tree → Prop
  /-- Nothing is missing. -/
  | whole (isField : Bool) (t : Tree) : Tree.Cut isField t (t.wire isField) t
  | bytes (isField : Bool) (b p : Bytes) (h : p <+: b) (hp : p.length < b.length) : Tree.Cut isField (.bytes b) p (.bytes p)
  | string (isField : Bool) (u u' : Utf8) (h : u'.bytes <+: u.bytes) (hp : u'.bytes.length < u.bytes.length) :
      Tree.Cut isField (.string u) u'.bytes (.string u')
  | character (isField : Bool) (u : Utf8) (p : Bytes) (h : p <+: u.bytes) (hp : p.length < u.bytes.length) (hv : validUtf8 p = false) :
      Tree.Cut isField (.string u) p (.bytes p)
  | scalar (isField : Bool) (s : Scalar) (v : s.Val) (p : Bytes) (h : p <+: (Tree.scalar s v).wire isField)
      (hp : p.length < ((Tree.scalar s v).wire isField).length) : Tree.Cut isField (.scalar s v) p (.bytes p)
  | units (isField : Bool) (n : UInt64) (p : Bytes) (h : p <+: (Tree.units n).wire isField)
      (hp : p.length < ((Tree.units n).wire isField).length) : Tree.Cut isField (.units n) p (.bytes p)
  /-- Cut off in the middle of an element. -/
  | scalars (isField : Bool) (s : Scalar) (before after : List s.Val) (v : s.Val) (q : Bytes) (h : q <+: Spec.scalarElem s v)
      (hq : q.length < (Spec.scalarElem s v).length) :
      Tree.Cut isField (.scalars s (before ++ v :: after)) (before.flatMap (Spec.scalarElem s) ++ q) (.scalars s before)
  /-- Cut off in the middle of the size of an element. -/
  | size (isField : Bool) (before after : List Tree) (t : Tree) (q : Bytes) (h : q <+: Spec.varintBytes (t.wire false).length)
      (hq : q.length < (Spec.varintBytes (t.wire false).length).length) :
      Tree.Cut isField (.array (before ++ t :: after)) (Tree.wireElems before ++ q) (.array before)
  /-- Cut off in the middle of an element. -/
  | elem (isField : Bool) (before after : List Tree) (t t' : Tree) (q : Bytes) (h : Tree.Cut false t q t')
      (hq : q.length < (t.wire false).length) :
      Tree.Cut isField (.array (before ++ t :: after)) (Tree.wireElems before ++ (Spec.varintBytes (t.wire false).length ++ q))
        (.array (before ++ [t']))
  /-- Cut off in the middle of the header of a field. The first byte of an integer whose size is not in its header counts as part of the
  header, because it determines the size. -/
  | header (isField : Bool) (before after : List (Nat × Tree)) (i : Nat) (t : Tree) (q : Bytes)
      (h : q <+: Spec.header i (t.wire true).length t.isInteger)
      (hq : q.length < (Spec.header i (t.wire true).length t.isInteger).length ∨ t.Peeked) :
      Tree.Cut isField (.fields (before ++ (i, t) :: after)) (Tree.wireFields before ++ q) (.fields before)
  /-- Cut off in the middle of the value of a field. -/
  | value (isField : Bool) (before after : List (Nat × Tree)) (i : Nat) (t t' : Tree) (q : Bytes) (h : Tree.Cut true t q t')
      (hq : q.length < (t.wire true).length) (hp : t.Peeked → q ≠ []) :
      Tree.Cut isField (.fields (before ++ (i, t) :: after))
        (Tree.wireFields before ++ (Spec.header i (t.wire true).length t.isInteger ++ q)) (.fields (before ++ [(i, t')]))

mutual
/-- A reader knows all fields of a content. -/
def CTy.Knows : CTy → Tree → Prop
  | .array c => fun | .array l => ∀ t ∈ l, CTy.Knows c t | _ => True
  | .struct fs => fun | .fields l => ∀ p ∈ l, p.1 ∈ fs.indices ∧ Fields.KnowsAt fs p.1 p.2 | _ => True
  | .choice fs => fun | .fields l => ∀ p ∈ l, p.1 ∈ fs.indices ∧ Fields.KnowsAt fs p.1 p.2 | _ => True
  | .bytes => fun _ => True
  | .string => fun _ => True
  | .units => fun _ => True
  | .scalars _ => fun _ => True

def Ty.Knows : Ty → Tree → Prop
  | .comp c => CTy.Knows c
  | .unit => fun _ => True
  | .scalar _ => fun _ => True

def Fields.KnowsAt : Fields → Nat → Tree → Prop
  | .nil, _, _ => True
  | .cons i _ t rest, j, tree => (j = i → Ty.Knows t tree) ∧ Fields.KnowsAt rest j tree
end

end Typical
