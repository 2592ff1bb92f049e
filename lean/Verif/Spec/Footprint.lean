import Verif.Types

/-!
# Specification: memory taken by a deserialised value

Bytes on a 64-bit machine, up to padding: a `Vec` or `String` is a 24-byte handle and its contents; an
`Option` or an `enum` has an 8-byte discriminant; a `Box` is 8 bytes and its contents. The contents of
`Vec<()>` take no memory. Spare capacity of vectors is not counted.
-/

namespace Typical

mutual
/-- Size of the value itself, without what it owns on the heap. -/
def CTy.width : CTy → Nat
  | .bytes => 24
  | .string => 24
  | .units => 24
  | .scalars _ => 24
  | .array _ => 24
  | .struct fs => Fields.width fs
  | .choice fs => 8 + Fields.width fs

def Ty.width : Ty → Nat
  | .unit => 0
  | .scalar _ => 8
  | .comp c => CTy.width c

/-- Sum over the fields, with an 8-byte discriminant (structs) or `Box` (choices) for each. -/
def Fields.width : Fields → Nat
  | .nil => 0
  | .cons _ _ t rest => (8 + Ty.width t) + Fields.width rest
end

/-- Total over a chain of fallbacks, each in a box of `w` bytes. -/
def Chain.total {α β : Type} (w : Nat) (f : α → Nat) (g : β → Nat) : Chain α β → Nat
  | .last b => g b
  | .more a rest => f a + w + Chain.total w f g rest

mutual
/-- Bytes owned on the heap by a deserialised value. -/
def CTy.heap : (c : CTy) → c.Msg .inn → Nat
  | .bytes, m => List.length (α := UInt8) m
  | .string, m => m.bytes.length
  | .units, _ => 0
  | .scalars s, m => 8 * List.length (α := s.Val) m
  | .array c, m => (List.map (fun e => c.width + CTy.heap c e) m).sum
  | .struct fs, m => Fields.heapStruct fs m
  | .choice fs, m => Chain.total (8 + fs.width) (Fields.heapSel fs) (Fields.heapSel fs) m

def Ty.heap : (t : Ty) → t.Msg .inn → Nat
  | .unit, _ => 0
  | .scalar _, _ => 0
  | .comp c, m => CTy.heap c m

def Fields.heapStruct : (fs : Fields) → fs.Struct .inn → Nat
  | .nil, _ => 0
  | .cons _ _ t rest, (slot, m) => ((Slot.get? slot).map (Ty.heap t)).getD 0 + Fields.heapStruct rest m

def Fields.heapSel {fb : Bool} : (fs : Fields) → fs.Sel .inn fb → Nat
  | .nil, e => e.elim
  | .cons _ _ t _, .inl p => Ty.heap t p.val
  | .cons _ _ _ rest, .inr p => Fields.heapSel rest p
end

/-- Total memory of a deserialised value. -/
def footprint (c : CTy) (m : c.Msg .inn) : Nat := c.width + c.heap m

mutual
/-- Bytes of memory per byte of input, depending on the schema only. -/
def CTy.cost : CTy → Nat
  | .bytes => 1
  | .string => 1
  | .units => 0
  | .scalars _ => 8
  | .array c => CTy.width c + CTy.cost c
  | .struct fs => Fields.cost fs
  | .choice fs => 8 + Fields.width fs + Fields.cost fs

def Ty.cost : Ty → Nat
  | .unit => 0
  | .scalar _ => 0
  | .comp c => CTy.cost c

def Fields.cost : Fields → Nat
  | .nil => 0
  | .cons _ _ t rest => max (Ty.cost t) (Fields.cost rest)
end

end Typical
