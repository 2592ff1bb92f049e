import Verif.Varint

/-!
# Wire types and messages

A wire type is the finite unfolding of a schema type (`/repo/src/schema.rs` lines 44-84): names are
erased and references are replaced by what they refer to (the validator rejects cyclic ones). The
split into `Ty` / `CTy` / `Scalar` follows the three-way case distinction which every code
generation function of `/repo/src/generate_rust.rs` makes on the element type of an array
(e.g. lines 1824-1856): arrays of `Unit`, arrays of scalars, arrays of anything else.
-/

namespace Typical

/-- `schema::Rule`: `/repo/src/schema.rs` lines 60-65. -/
inductive Rule
  | asymmetric
  | optional
  | required
  deriving DecidableEq, Repr

/-- The scalar built-in types of `schema::TypeVariant`, `/repo/src/schema.rs` lines 73-84. -/
inductive Scalar
  | bool
  | s64
  | u64
  | f64
  deriving DecidableEq, Repr

mutual
/-- Composite types: those whose values are delimited by an explicit size when they are elements of
arrays. `units` is `[Unit]`, `scalars s` is an array of scalars, `array c` an array of composites;
`struct` and `choice` are unfolded declarations. -/
inductive CTy
  | bytes
  | string
  | units
  | scalars (s : Scalar)
  | array (c : CTy)
  | struct (fields : Fields)
  | choice (fields : Fields)

/-- The type of a field: `schema::TypeVariant`, `/repo/src/schema.rs` lines 73-84. -/
inductive Ty
  | unit
  | scalar (s : Scalar)
  | comp (c : CTy)

/-- The fields of a declaration (`schema::Field`, `/repo/src/schema.rs` lines 50-58, without names,
comments and source ranges), in declaration order. -/
inductive Fields
  | nil
  | cons (index : Nat) (rule : Rule) (ty : Ty) (rest : Fields)
end

/-- Does a byte have the form `10xxxxxx`? -/
def isCont (b : UInt8) : Bool := 0x80 ≤ b && b ≤ 0xBF

/-- Validity of UTF-8 (RFC 3629 table 3-7 / `core::str::from_utf8`): the check made by
`Read::read_to_string`, `/repo/src/generate_rust.rs` lines 2337-2346. -/
def validUtf8 : Bytes → Bool
  | [] => true
  | b :: s =>
    if b ≤ 0x7F then validUtf8 s
    else if 0xC2 ≤ b && b ≤ 0xDF then
      match s with
      | c :: s => isCont c && validUtf8 s
      | _ => false
    else if 0xE0 ≤ b && b ≤ 0xEF then
      match s with
      | c :: d :: s =>
        (if b = 0xE0 then 0xA0 ≤ c && c ≤ 0xBF
         else if b = 0xED then 0x80 ≤ c && c ≤ 0x9F
         else isCont c) && isCont d && validUtf8 s
      | _ => false
    else if 0xF0 ≤ b && b ≤ 0xF4 then
      match s with
      | c :: d :: e :: s =>
        (if b = 0xF0 then 0x90 ≤ c && c ≤ 0xBF
         else if b = 0xF4 then 0x80 ≤ c && c ≤ 0x8F
         else isCont c) && isCont d && isCont e && validUtf8 s
      | _ => false
    else false

/-- A Rust `String`: bytes known to be valid UTF-8. -/
structure Utf8 where
  bytes : Bytes
  valid : validUtf8 bytes = true

/-- Direction of a generated type: `Direction`, `/repo/src/generate_rust.rs` lines 92-98 (without
`Atlas`, which is modelled separately). -/
inductive Dir
  | out
  | inn
  deriving DecidableEq, Repr

/-- The Rust types of scalars: `write_type`, `/repo/src/generate_rust.rs` lines 1608-1680. An `f64` is
represented by its bit pattern. -/
def Scalar.Val : Scalar → Type
  | .bool => Bool
  | .s64 => Int64
  | .u64 => UInt64
  | .f64 => UInt64

/-- May a field of this rule be missing in a struct of the given direction? `write_struct`,
`/repo/src/generate_rust.rs` lines 1440-1476. -/
def Rule.mayOmit : Dir → Rule → Bool
  | .out, .optional => true
  | .inn, .optional => true
  | .inn, .asymmetric => true
  | _, _ => false

/-- Does the variant of a choice for a field of this rule carry a fallback in the given direction?
`write_choice`, `/repo/src/generate_rust.rs` lines 1504-1556. -/
def Rule.hasFallback : Dir → Rule → Bool
  | .out, .optional => true
  | .out, .asymmetric => true
  | .inn, .optional => true
  | _, _ => false

/-- The type of a struct member: `Option<T>` or `T`. -/
def Slot : Bool → Type → Type
  | true, α => Option α
  | false, α => α

/-- The member viewed as an option (`Some` if the member is not an `Option`). -/
def Slot.get? {α : Type} : {b : Bool} → Slot b α → Option α
  | true, o => o
  | false, a => some a

/-- Apply a function under a slot. -/
def Slot.map {α β : Type} (f : α → β) : {b : Bool} → Slot b α → Slot b β
  | true, o => Option.map f o
  | false, a => f a

/-- A value which is only available when `p` holds. -/
structure Guard (p : Prop) (α : Type) where
  val : α
  ok : p

/-- A value of a choice: variants with a fallback box another value of the same choice, the others
end the chain. (`enum E { A(α, Box<E>), B(β) }`.) -/
inductive Chain (α β : Type)
  | last (b : β)
  | more (a : α) (fallback : Chain α β)

mutual
/-- The Rust type generated for a composite type in the given direction. `write_type`,
`write_struct`, `write_choice`: `/repo/src/generate_rust.rs` lines 1420-1562, 1608-1680.
`Vec<()>` is represented by its length. A choice is the chain of its fallbacks. -/
def CTy.Msg (d : Dir) : CTy → Type
  | .bytes => Bytes
  | .string => Utf8
  | .units => UInt64
  | .scalars s => List s.Val
  | .array c => List (CTy.Msg d c)
  | .struct fs => Fields.Struct d fs
  | .choice fs => Chain (Fields.Sel d true fs) (Fields.Sel d false fs)

/-- The Rust type of a field's payload. -/
def Ty.Msg (d : Dir) : Ty → Type
  | .unit => Unit
  | .scalar s => s.Val
  | .comp c => CTy.Msg d c

/-- The members of a generated struct. -/
def Fields.Struct (d : Dir) : Fields → Type
  | .nil => Unit
  | .cons _ r t rest => Slot (r.mayOmit d) (Ty.Msg d t) × Fields.Struct d rest

/-- One variant (with payload) among those of a generated enum which have (`fb = true`) or do not have
(`fb = false`) a fallback. -/
def Fields.Sel (d : Dir) (fb : Bool) : Fields → Type
  | .nil => Empty
  | .cons _ r t rest => Guard (r.hasFallback d = fb) (Ty.Msg d t) ⊕ Fields.Sel d fb rest
end

/-- Rule and type of the first field with the given index. -/
def Fields.lookup : Fields → Nat → Option (Rule × Ty)
  | .nil, _ => none
  | .cons i r t rest, j => if j = i then some (r, t) else rest.lookup j

/-- The list of indices. -/
def Fields.indices : Fields → List Nat
  | .nil => []
  | .cons i _ _ rest => i :: rest.indices

mutual
/-- Well-formedness guaranteed by the validator (`/repo/src/validator.rs` lines 62-109): indices are
distinct and at most `2^62 - 1`, at all depths. -/
def CTy.WF : CTy → Prop
  | .array c => CTy.WF c
  | .struct fs => fs.indices.Nodup ∧ Fields.WF fs
  | .choice fs => fs.indices.Nodup ∧ Fields.WF fs
  | _ => True

/-- Well-formedness of field types. -/
def Ty.WF : Ty → Prop
  | .comp c => CTy.WF c
  | _ => True

/-- Well-formedness of each field. -/
def Fields.WF : Fields → Prop
  | .nil => True
  | .cons i _ t rest => i < 2 ^ 62 ∧ Ty.WF t ∧ Fields.WF rest
end

end Typical
