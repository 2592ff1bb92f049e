import Verif.Gen.Sem
import Verif.Front.Names
import Verif.Spec.Denote
import Verif.Spec.Wire

/-!
# Specification: values of generated Rust types

`Holds T S d k v t`: `v` is a value of the type generated for the declaration `k` (`d = .out`: `PointOut`; `d = .inn`: `PointIn`), and its
content is `t`. Written from `/repo/README.md`, sections "Structs", "Choices" and the table of Rust types, directly in terms of schemas:

* A struct has one member for each field, in the order of the schema, named by the field in snake case; the member is an `Option`
  if the field is optional, or, in `PointIn`, asymmetric.
* A variant of a choice is named by a field in Pascal case; it carries the payload (none for `Unit`); and a fallback, which is a value
  of the same type, if the field is optional, or, in `ChoiceOut`, asymmetric.
-/

namespace Typical.Gen

/-- The suffix of the types of a direction. -/
def suffix : Dir → NameSuffix
  | .out => .out
  | .inn => .in_

/-- The type which is generated for the declaration `d` of a file. -/
def generatedType (T : CharTable) (ns : Namespace) (d : Declaration) (x : Dir) : TypeId :=
  (ns.components.map rustSnake, rustPascal T d.name (some (suffix x)))

/-- Which scalar is a type expression? -/
def scalarType : TypeVariant → Option Scalar
  | .bool => some .bool
  | .s64 => some .s64
  | .u64 => some .u64
  | .f64 => some .f64
  | _ => none

/-- The value of a scalar. -/
def encScalar : (s : Scalar) → s.Val → Val
  | .bool, b => .bool b
  | .s64, v => .i64 v
  | .u64, v => .u64 v
  | .f64, v => .f64 v

mutual
/-- `v` is a value of the type generated for the declaration `k`, with content `t`. -/
inductive Holds (T : CharTable) (S : Schemas) (x : Dir) : List Str × Str → Val → Tree → Prop
  | struct {k ns s d ms l} : S.Declares k ns s d → d.variant = .struct → HoldsMembers T S x ns s d.fields ms l →
    Holds T S x k (.struct (generatedType T ns d x) ms) (.fields l)
  | last {k ns s d f vs t} : S.Declares k ns s d → d.variant = .choice → f ∈ d.fields → f.rule.hasFallback x = false →
    HoldsPayload T S x ns s f.type.variant vs t →
    Holds T S x k (.variant (generatedType T ns d x) (rustPascal T f.name none) vs) (.fields [(f.index, t)])
  | more {k ns s d f vs t v l} : S.Declares k ns s d → d.variant = .choice → f ∈ d.fields → f.rule.hasFallback x = true →
    HoldsPayload T S x ns s f.type.variant vs t → Holds T S x k v (.fields l) →
    Holds T S x k (.variant (generatedType T ns d x) (rustPascal T f.name none) (vs ++ [v])) (.fields ((f.index, t) :: l))
/-- The members of a struct, and its content. -/
inductive HoldsMembers (T : CharTable) (S : Schemas) (x : Dir) : Namespace → Schema → List Field → List (Str × Val) →
    List (Nat × Tree) → Prop
  | nil {ns s} : HoldsMembers T S x ns s [] [] []
  | plain {ns s f fs v t ms l} : f.rule.mayOmit x = false → HoldsType T S x ns s f.type.variant v t → HoldsMembers T S x ns s fs ms l →
    HoldsMembers T S x ns s (f :: fs) ((rustSnake f.name, v) :: ms) ((f.index, t) :: l)
  | present {ns s f fs v t ms l} : f.rule.mayOmit x = true → HoldsType T S x ns s f.type.variant v t → HoldsMembers T S x ns s fs ms l →
    HoldsMembers T S x ns s (f :: fs) ((rustSnake f.name, .some v) :: ms) ((f.index, t) :: l)
  | absent {ns s f fs ms l} : f.rule.mayOmit x = true → HoldsMembers T S x ns s fs ms l →
    HoldsMembers T S x ns s (f :: fs) ((rustSnake f.name, .none) :: ms) l
/-- The payload of a variant, and its content. -/
inductive HoldsPayload (T : CharTable) (S : Schemas) (x : Dir) : Namespace → Schema → TypeVariant → List Val → Tree → Prop
  | unit {ns s} : HoldsPayload T S x ns s .unit [] .unit
  | other {ns s tv v t} : tv ≠ .unit → HoldsType T S x ns s tv v t → HoldsPayload T S x ns s tv [v] t
/-- `v` is a value of the type of fields with type `tv`, with content `t`. -/
inductive HoldsType (T : CharTable) (S : Schemas) (x : Dir) : Namespace → Schema → TypeVariant → Val → Tree → Prop
  | unit {ns s} : HoldsType T S x ns s .unit .unit .unit
  | scalar {ns s tv c} (v : c.Val) : scalarType tv = some c → HoldsType T S x ns s tv (encScalar c v) (.scalar c v)
  | bytes {ns s} (b : Bytes) : HoldsType T S x ns s .bytes (.bytes b) (.bytes b)
  | string {ns s} (u : Utf8) : HoldsType T S x ns s .string (.str u.bytes) (.string u)
  | units {ns s r} (n : UInt64) : HoldsType T S x ns s (.array r .unit) (.vec (List.replicate n.toNat .unit)) (.units n)
  | scalars {ns s r tv c} (l : List c.Val) : scalarType tv = some c →
    HoldsType T S x ns s (.array r tv) (.vec (l.map (encScalar c))) (.scalars c l)
  | array {ns s r tv vs l} : tv ≠ .unit → scalarType tv = none → HoldsElems T S x ns s tv vs l →
    HoldsType T S x ns s (.array r tv) (.vec vs) (.array l)
  | custom {ns s i n k v t} : s.RefersTo ns i n k → Holds T S x k v t → HoldsType T S x ns s (.custom i n) v t
/-- The elements of an array, and their contents. -/
inductive HoldsElems (T : CharTable) (S : Schemas) (x : Dir) : Namespace → Schema → TypeVariant → List Val → List Tree → Prop
  | nil {ns s tv} : HoldsElems T S x ns s tv [] []
  | cons {ns s tv v t vs l} : HoldsType T S x ns s tv v t → HoldsElems T S x ns s tv vs l →
    HoldsElems T S x ns s tv (v :: vs) (t :: l)
end

end Typical.Gen
