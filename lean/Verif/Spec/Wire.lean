import Verif.Types
import Verif.Spec.Varint

/-!
# Specification: what a message means and how it is laid out on the wire

Independent of the modelled code. `Tree` is the content of a message without names and types:
a struct or choice is a list of (index, value) pairs. `tree` gives the content of a writer-side
message, `wire` the byte layout of a content (transcribed from `/repo/README.md`, section "Binary
encoding", lines 589-640), and `read` what a reader of a given type gets out of a content
(README lines 605-625).
-/

namespace Typical

/-- The content of a message. -/
inductive Tree
  | unit
  | scalar (s : Scalar) (v : s.Val)
  | bytes (b : Bytes)
  | string (u : Utf8)
  | units (n : UInt64)
  | scalars (s : Scalar) (vs : List s.Val)
  | array (elems : List Tree)
  | fields (fs : List (Nat × Tree))

/-! ### Layout -/

namespace Spec

/-- The variable-width encoding, as bytes. -/
def varintBytes (n : Nat) : Bytes := (varint n).map UInt8.ofNat

/-- Eight little-endian bytes. -/
def fixed64 (n : Nat) : Bytes := (littleEndian 8 n).map UInt8.ofNat

/-- The unsigned integer which represents a scalar. -/
def scalarNat : (s : Scalar) → s.Val → Nat
  | .bool, b => cond b 1 0
  | .s64, v => (zigzag v.toInt).toNat
  | .u64, v => v.toNat
  | .f64, v => v.toNat

/-- Layout of an unsigned integer which is the value of a field. -/
def intField (n : Nat) : Bytes :=
  if n = 0 then [] else if n < 567382630219904 then varintBytes n else fixed64 n

/-- Layout of a scalar which is the value of a field. -/
def scalarField (s : Scalar) (v : s.Val) : Bytes :=
  if s = .f64 then (if scalarNat s v = 0 then [] else fixed64 (scalarNat s v))
  else intField (scalarNat s v)

/-- Layout of a scalar which is an element of an array. -/
def scalarElem (s : Scalar) (v : s.Val) : Bytes :=
  if s = .f64 then fixed64 (scalarNat s v) else varintBytes (scalarNat s v)

/-- The size mode of a field. -/
def sizeMode (size : Nat) (isInteger : Bool) : Nat :=
  if size = 0 then 0 else if size = 8 then 1 else if isInteger then 2 else 3

/-- The header of a field: the tag, then the size if the size mode is 3. -/
def header (index size : Nat) (isInteger : Bool) : Bytes :=
  varintBytes (4 * index + sizeMode size isInteger) ++
    (if sizeMode size isInteger = 3 then varintBytes size else [])

/-- A field: header and value. -/
def field (index : Nat) (isInteger : Bool) (value : Bytes) : Bytes :=
  header index value.length isInteger ++ value

end Spec

/-- Is the value encoded as a variable-width integer? -/
def Tree.isInteger : Tree → Bool
  | .scalar s _ => s ≠ .f64
  | _ => false

mutual
/-- The layout of a content, as a field's value (`isField`) or otherwise. -/
def Tree.wire (isField : Bool) : Tree → Bytes
  | .unit => []
  | .scalar s v => if isField then Spec.scalarField s v else Spec.scalarElem s v
  | .bytes b => b
  | .string u => u.bytes
  | .units n => if isField then Spec.intField n.toNat else Spec.varintBytes n.toNat
  | .scalars s vs => vs.flatMap (Spec.scalarElem s)
  | .array l => Tree.wireElems l
  | .fields l => Tree.wireFields l

/-- (size, element) pairs. -/
def Tree.wireElems : List Tree → Bytes
  | [] => []
  | t :: l => Spec.varintBytes (Tree.wire false t).length ++ Tree.wire false t ++ Tree.wireElems l

/-- (header, value) pairs. -/
def Tree.wireFields : List (Nat × Tree) → Bytes
  | [] => []
  | (i, t) :: l => Spec.field i t.isInteger (Tree.wire true t) ++ Tree.wireFields l
end

/-! ### Content of a message -/

/-- The list of fields of a chain. -/
def Chain.toList {α β γ : Type} (f : α → γ) (g : β → γ) : Chain α β → List γ
  | .last b => [g b]
  | .more a rest => f a :: rest.toList f g

mutual
/-- The content of a message (of a writer: `d = .out`; of a reader: `d = .inn`). -/
def CTy.tree {d : Dir} : (c : CTy) → c.Msg d → Tree
  | .bytes, m => .bytes m
  | .string, m => .string m
  | .units, n => .units n
  | .scalars s, vs => .scalars s vs
  | .array c, m => .array (m.map (CTy.tree c))
  | .struct fs, m => .fields (Fields.treeStruct fs m)
  | .choice fs, m => .fields (Chain.toList (Fields.treeSel fs) (Fields.treeSel fs) m)

/-- The content of a field's value. -/
def Ty.tree {d : Dir} : (t : Ty) → t.Msg d → Tree
  | .unit, _ => .unit
  | .scalar s, v => .scalar s v
  | .comp c, m => CTy.tree c m

/-- The fields present, in declaration order. -/
def Fields.treeStruct {d : Dir} : (fs : Fields) → fs.Struct d → List (Nat × Tree)
  | .nil, _ => []
  | .cons i _ t rest, (slot, m) =>
    (match Slot.get? slot with
     | none => []
     | some p => [(i, Ty.tree t p)]) ++ Fields.treeStruct rest m

/-- The field selected. -/
def Fields.treeSel {d : Dir} {fb : Bool} : (fs : Fields) → fs.Sel d fb → Nat × Tree
  | .nil, e => e.elim
  | .cons i _ t _, .inl p => (i, Ty.tree t p.val)
  | .cons _ _ _ rest, .inr p => Fields.treeSel rest p
end

/-! ### What a reader sees -/

/-- The value of a struct member for a field which is present or not; `none` if the member is not
optional on the reader's side and the field is missing. -/
def Slot.ofOption {α : Type} : (mayOmit : Bool) → Option α → Option (Slot mayOmit α)
  | true, o => some o
  | false, o => o

/-- The scalar stored in a content, if it has the right type. -/
def Scalar.cast (s s' : Scalar) (v : s'.Val) : Option s.Val :=
  if h : s' = s then some (h ▸ v) else none

/-- Reading a choice: unrecognised fields are ignored, the first recognised one is used; if it is
optional, what follows is its fallback. `variant` gives `none` for unrecognised fields, `some none`
for fields whose value cannot be read. -/
def readChain {α β : Type} (variant : Nat → Tree → Option (Option (α ⊕ β))) :
    List (Nat × Tree) → Option (Chain α β)
  | [] => none
  | (i, t) :: l =>
    match variant i t with
    | none => readChain variant l
    | some none => none
    | some (some (.inl a)) => (readChain variant l).map (Chain.more a)
    | some (some (.inr b)) => some (.last b)

mutual
/-- What a reader of type `c` gets from a content; `none` if it cannot be read. -/
def CTy.read : (c : CTy) → Tree → Option (c.Msg .inn)
  | .bytes => fun | .bytes b => some b | _ => none
  | .string => fun | .string u => some u | _ => none
  | .units => fun | .units n => some n | _ => none
  | .scalars s => fun | .scalars s' vs => if h : s' = s then some (h ▸ vs) else none | _ => none
  | .array c => fun | .array l => l.mapM (CTy.read c) | _ => none
  | .struct fs => fun | .fields l => Fields.readStruct fs l | _ => none
  | .choice fs => fun | .fields l => readChain (Fields.readVariant fs) l | _ => none

def Ty.read : (t : Ty) → Tree → Option (t.Msg .inn)
  | .unit => fun | .unit => some () | _ => none
  | .scalar s => fun | .scalar s' v => s.cast s' v | _ => none
  | .comp c => CTy.read c

/-- Each member of a struct is the first of the fields with its index, none if there is none. Further
fields with the same index must be readable too, but are not used. -/
def Fields.readStruct : (fs : Fields) → List (Nat × Tree) → Option (fs.Struct .inn)
  | .nil, _ => some ()
  | .cons i r t rest, l =>
    match (l.filter (fun p => p.1 == i)).mapM (fun p => Ty.read t p.2) with
    | none => none
    | some vs =>
      match Slot.ofOption (r.mayOmit .inn) vs.head?, Fields.readStruct rest l with
      | some a, some b => some (a, b)
      | _, _ => none

/-- The variant of a choice for a field: with (`inl`) or without (`inr`) exposed fallback. -/
def Fields.readVariant :
    (fs : Fields) → Nat → Tree → Option (Option (fs.Sel .inn true ⊕ fs.Sel .inn false))
  | .nil, _, _ => none
  | .cons i r t rest, j, tree =>
    if j = i then
      match Ty.read t tree with
      | none => some none
      | some v =>
        if h : r.hasFallback .inn = true then some (some (.inl (.inl ⟨v, h⟩)))
        else some (some (.inr (.inl ⟨v, Bool.not_eq_true _ ▸ h⟩)))
    else
      match Fields.readVariant rest j tree with
      | none => none
      | some none => some none
      | some (some (.inl a)) => some (some (.inl (.inr a)))
      | some (some (.inr b)) => some (some (.inr (.inr b)))
end

/-! ### Contents which have the shape a reader expects -/

mutual
/-- Every field recognised by the reader has a value of the expected shape; all field indices of structs and
choices are within bounds. Nothing is required of unrecognised fields. -/
def CTy.Fits : CTy → Tree → Prop
  | .bytes => fun | .bytes _ => True | _ => False
  | .string => fun | .string _ => True | _ => False
  | .units => fun | .units _ => True | _ => False
  | .scalars s => fun | .scalars s' _ => s' = s | _ => False
  | .array c => fun | .array l => ∀ t ∈ l, CTy.Fits c t | _ => False
  | .struct fs => fun
    | .fields l => ∀ p ∈ l, p.1 < 2 ^ 62 ∧ Fields.FitsAt fs p.1 p.2
    | _ => False
  | .choice fs => fun
    | .fields l => ∀ p ∈ l, p.1 < 2 ^ 62 ∧ Fields.FitsAt fs p.1 p.2
    | _ => False

def Ty.Fits : Ty → Tree → Prop
  | .unit => fun | .unit => True | _ => False
  | .scalar s => fun | .scalar s' _ => s' = s | _ => False
  | .comp c => CTy.Fits c

/-- If the index is that of a field then the value fits its type. -/
def Fields.FitsAt : Fields → Nat → Tree → Prop
  | .nil, _, _ => True
  | .cons i _ t rest, j, tree => (j = i → Ty.Fits t tree) ∧ Fields.FitsAt rest j tree
end

end Typical
