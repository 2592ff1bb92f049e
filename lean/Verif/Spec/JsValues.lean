import Verif.TsGen.Sem
import Verif.Spec.Denote
import Verif.Spec.Wire
import Verif.Spec.Values

/-!
# Specification: values of generated TypeScript types

`JsHolds T S x H k v t`: `v` is a value of the type generated for the declaration `k` (`x = .out`: `PointOut`; `x = .inn`: `PointIn`), its arrays and
buffers are in the part `H` of the heap, and its content is `t`. Written from `/repo/README.md`, sections "Structs", "Choices" and the table of
TypeScript types, directly in terms of schemas:

* A struct is an object with a property for each field, named by the field in camel case; the property can be `undefined` if the field is
  optional, or, in `PointIn`, asymmetric.
* A choice is an object with a property named by a field; and, if the field is optional, or, in `ChoiceOut`, asymmetric, a property `$fallback`, which is a
  value of the same type. `ChoiceIn` also has the property `$field`, which is the name of the property.
* Objects which are given to the code can have other properties too; those which it returns have none. If a choice which is given to the
  code has properties named by several fields (its own or inherited ones), the field which is declared first counts.

Strings are given by their UTF-8 encoding: those with lone surrogates are not considered.
-/

namespace Typical.TsGen

/-- The value of a scalar: `boolean`, `bigint`, `number`. -/
def jsScalar : (s : Scalar) → s.Val → Val
  | .bool, b => .bool b
  | .s64, v => .big (Int64.toInt v)
  | .u64, v => .big (UInt64.toNat v)
  | .f64, v => encF64 v

/-- The object stands for this field of a choice. -/
def JsSelects (T : CharTable) (fields : List Field) (f : Field) (o : List (Str × Val)) : Dir → Prop
  | .out => fields.find? (fun g => hasProperty (o.map (·.1)) (tsCamel T g.name)) = some f
  | .inn => f ∈ fields ∧ member "$field".toList o = some (.text (tsCamel T f.name)) ∧
    o.map (·.1) = ["$field".toList, tsCamel T f.name] ++ if f.rule.hasFallback .inn then ["$fallback".toList] else []

mutual
/-- `v` is a value of the type generated for the declaration `k`, with content `t`. -/
inductive JsHolds (T : CharTable) (S : Schemas) (x : Dir) (H : Nat → Option Obj) : List Str × Str → Val → Tree → Prop
  | struct {k ns s d o l} : S.Declares k ns s d → d.variant = .struct →
    (x = .inn → o.map (·.1) = d.fields.map (fun f => tsCamel T f.name)) → JsMembers T S x H ns s d.fields o l →
    JsHolds T S x H k (.obj o) (.fields l)
  | last {k ns s d f o v t} : S.Declares k ns s d → d.variant = .choice → JsSelects T d.fields f o x → f.rule.hasFallback x = false →
    member (tsCamel T f.name) o = some v → JsType T S x H ns s f.type.variant v t →
    JsHolds T S x H k (.obj o) (.fields [(f.index, t)])
  | more {k ns s d f o v t w l} : S.Declares k ns s d → d.variant = .choice → JsSelects T d.fields f o x → f.rule.hasFallback x = true →
    member (tsCamel T f.name) o = some v → JsType T S x H ns s f.type.variant v t →
    member "$fallback".toList o = some w → JsHolds T S x H k w (.fields l) →
    JsHolds T S x H k (.obj o) (.fields ((f.index, t) :: l))
/-- The properties of an object for a struct, and its content. -/
inductive JsMembers (T : CharTable) (S : Schemas) (x : Dir) (H : Nat → Option Obj) : Namespace → Schema → List Field → List (Str × Val) →
    List (Nat × Tree) → Prop
  | nil {ns s o} : JsMembers T S x H ns s [] o []
  | present {ns s f fs v t o l} : member (tsCamel T f.name) o = some v → JsType T S x H ns s f.type.variant v t → JsMembers T S x H ns s fs o l →
    JsMembers T S x H ns s (f :: fs) o ((f.index, t) :: l)
  | absent {ns s f fs o l} : member (tsCamel T f.name) o = some .undef → f.rule.mayOmit x = true → JsMembers T S x H ns s fs o l →
    JsMembers T S x H ns s (f :: fs) o l
/-- `v` is a value of the type of fields with type `tv`, with content `t`. -/
inductive JsType (T : CharTable) (S : Schemas) (x : Dir) (H : Nat → Option Obj) : Namespace → Schema → TypeVariant → Val → Tree → Prop
  | unit {ns s} : JsType T S x H ns s .unit .null .unit
  | scalar {ns s tv c} (v : c.Val) : Gen.scalarType tv = some c → JsType T S x H ns s tv (jsScalar c v) (.scalar c v)
  | bytes {ns s r b} : H r = some (.buf b) → JsType T S x H ns s .bytes (.buf r) (.bytes b)
  | string {ns s} (u : Utf8) : JsType T S x H ns s .string (.str u.bytes) (.string u)
  | units {ns s e r} (n : UInt64) : H r = some (.arr (List.replicate n.toNat .null)) → JsType T S x H ns s (.array e .unit) (.arr r) (.units n)
  | scalars {ns s e tv c r} (l : List c.Val) : Gen.scalarType tv = some c → H r = some (.arr (l.map (jsScalar c))) →
    JsType T S x H ns s (.array e tv) (.arr r) (.scalars c l)
  | array {ns s e tv r vs l} : tv ≠ .unit → Gen.scalarType tv = none → H r = some (.arr vs) → JsElems T S x H ns s tv vs l →
    JsType T S x H ns s (.array e tv) (.arr r) (.array l)
  | custom {ns s i n k v t} : s.RefersTo ns i n k → JsHolds T S x H k v t → JsType T S x H ns s (.custom i n) v t
/-- The elements of an array, and their contents. -/
inductive JsElems (T : CharTable) (S : Schemas) (x : Dir) (H : Nat → Option Obj) : Namespace → Schema → TypeVariant → List Val → List Tree → Prop
  | nil {ns s tv} : JsElems T S x H ns s tv [] []
  | cons {ns s tv v t vs l} : JsType T S x H ns s tv v t → JsElems T S x H ns s tv vs l →
    JsElems T S x H ns s tv (v :: vs) (t :: l)
end

/-- The argument of a `deserialize` function: an `ArrayBuffer`, or a `DataView` or a typed array, which is a window into a buffer. `b` are the
bytes, and `before`, `after` those around the window. -/
inductive JsInput (h : List Obj) : Val → Bytes → Bytes → Bytes → Prop
  | buffer {r b} : h[r]? = some (.buf b) → JsInput h (.buf r) [] b []
  | view {r before b after} : h[r]? = some (.buf (before ++ b ++ after)) → JsInput h (.view r before.length b.length) before b after
  | typed {r before b after} : h[r]? = some (.buf (before ++ b ++ after)) → JsInput h (.typed r before.length b.length) before b after

end Typical.TsGen
