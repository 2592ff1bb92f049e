import Verif.Rust

/-!
# Model of the recursion of the generated Rust deserialisers

How many calls of generated `deserialize_from_reader_ref` functions are active at the same time, at most. The control flow is that of
`Verif/Rust.lean`; only the calls are counted. (Arrays are read by inline code, `/repo/src/generate_rust.rs` lines 2135-2188, so they do
not count.)
-/

namespace Typical

/-- Calls below that of a struct: the loop of lines 831-896. `depth` counts the calls for one field. -/
def structDepth {σ : Type} (step : Nat → Nat → Bytes → σ → Except Err (Option (σ × Bytes)))
    (depth : Nat → Nat → Bytes → Nat) : Nat → Bytes → σ → Nat
  | 0, _, _ => 0
  | fuel + 1, s, st =>
    match deserializeFieldHeader s with
    | none => 0
    | some (index, n, s) =>
      max (depth index n (s.take n))
        (match step index n (s.take n) st with
         | .error _ => 0
         | .ok (some (st, rest)) => structDepth step depth fuel (rest ++ s.drop n) st
         | .ok none =>
           match skip n s with
           | .error _ => 0
           | .ok s => structDepth step depth fuel s st)

/-- Calls below that of a choice: the loop of lines 1285-1376. The fallback of an optional field is read by a recursive call (lines
1345-1348), unrecognised fields are skipped in the loop. -/
def choiceDepth {α β : Type} (step : Nat → Nat → Bytes → Except Err (Option ((α ⊕ β) × Bytes)))
    (depth : Nat → Nat → Bytes → Nat) : Nat → Bytes → Nat
  | 0, _ => 0
  | fuel + 1, s =>
    match deserializeFieldHeader s with
    | none => 0
    | some (index, n, s) =>
      max (depth index n (s.take n))
        (match step index n (s.take n) with
         | .error _ => 0
         | .ok (some (.inr _, _)) => 0
         | .ok (some (.inl _, rest)) => 1 + choiceDepth step depth fuel (rest ++ s.drop n)
         | .ok none =>
           match skip n s with
           | .error _ => 0
           | .ok s => choiceDepth step depth fuel s)

/-- Calls for the elements of an array: lines 2135-2188. -/
def arrayDepth {α : Type} (elem : Nat → Bytes → Res α) (depth : Nat → Bytes → Nat) : Nat → Bytes → Nat
  | 0, _ => 0
  | fuel + 1, s =>
    match deserializeVarint s with
    | none => 0
    | some (n, s) =>
      max (depth n.toNat (s.take n.toNat))
        (match elem n.toNat (s.take n.toNat) with
         | .error _ => 0
         | .ok (_, rest) => arrayDepth elem depth fuel (rest ++ s.drop n.toNat))

mutual
/-- The number of nested calls while `CTy.deser` runs: `write_deserialization_invocation` (lines 2124-2386), the deserialisers of structs
(lines 804-957) and choices (lines 1285-1376). -/
def CTy.calls (lim : Nat) : CTy → Nat → Bytes → Nat
  | .array c, _, s => arrayDepth (CTy.deser lim false c) (CTy.calls lim c) (s.length + 1) s
  | .struct fs, _, s => 1 + structDepth (Fields.step lim fs) (Fields.calls lim fs) (s.length + 1) s fs.emptySlots
  | .choice fs, _, s => 1 + choiceDepth (Fields.select lim fs) (Fields.calls lim fs) (s.length + 1) s
  | .bytes, _, _ => 0
  | .string, _, _ => 0
  | .units, _, _ => 0
  | .scalars _, _, _ => 0

def Ty.calls (lim : Nat) : Ty → Nat → Bytes → Nat
  | .comp c, n, s => CTy.calls lim c n s
  | .unit, _, _ => 0
  | .scalar _, _, _ => 0

/-- The calls for the field with a given index: lines 868-893, 1314-1370. -/
def Fields.calls (lim : Nat) : Fields → Nat → Nat → Bytes → Nat
  | .nil, _, _, _ => 0
  | .cons i _ t rest, index, n, s => if index = i then Ty.calls lim t n s else Fields.calls lim rest index n s
end

/-- The number of nested calls while `deserialize` runs: lines 1592-1605. -/
def nestedCalls (lim : Nat) (c : CTy) (s : Bytes) : Nat := c.calls lim s.length s

end Typical
