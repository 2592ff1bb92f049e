import Verif.Types

/-!
# Specification: nesting of types and of values
-/

namespace Typical

mutual
/-- How deeply declarations are nested in a type. -/
def CTy.height : CTy → Nat
  | .array c => CTy.height c
  | .struct fs => 1 + Fields.height fs
  | .choice fs => 1 + Fields.height fs
  | _ => 0

def Ty.height : Ty → Nat
  | .comp c => CTy.height c
  | _ => 0

def Fields.height : Fields → Nat
  | .nil => 0
  | .cons _ _ t rest => max (Ty.height t) (Fields.height rest)
end

mutual
/-- No choice, at any depth, has an optional field. -/
def CTy.NoOptionalChoice : CTy → Prop
  | .array c => CTy.NoOptionalChoice c
  | .struct fs => Fields.NoOptionalChoice fs
  | .choice fs => (∀ i t, fs.lookup i ≠ some (.optional, t)) ∧ Fields.NoOptionalChoice fs
  | _ => True

def Ty.NoOptionalChoice : Ty → Prop
  | .comp c => CTy.NoOptionalChoice c
  | _ => True

def Fields.NoOptionalChoice : Fields → Prop
  | .nil => True
  | .cons _ _ t rest => Ty.NoOptionalChoice t ∧ Fields.NoOptionalChoice rest
end

mutual
/-- How deeply structs and choices are nested in a value: a fallback is nested in the value which has it. -/
def CTy.valueDepth {d : Dir} : (c : CTy) → c.Msg d → Nat
  | .array c, m => (m.map (CTy.valueDepth c)).foldr max 0
  | .struct fs, m => 1 + Fields.structValueDepth fs m
  | .choice fs, m => chainDepth (Fields.selDepth fs) (Fields.selDepth fs) m
  | .bytes, _ => 0
  | .string, _ => 0
  | .units, _ => 0
  | .scalars _, _ => 0
where
  chainDepth {α β : Type} (f : α → Nat) (g : β → Nat) : Chain α β → Nat
    | .last b => 1 + g b
    | .more a rest => 1 + max (f a) (chainDepth f g rest)

def Ty.valueDepth {d : Dir} : (t : Ty) → t.Msg d → Nat
  | .comp c, m => CTy.valueDepth c m
  | .unit, _ => 0
  | .scalar _, _ => 0

def Fields.structValueDepth {d : Dir} : (fs : Fields) → fs.Struct d → Nat
  | .nil, _ => 0
  | .cons _ _ t rest, (slot, m) =>
    max (match Slot.get? slot with
         | none => 0
         | some v => Ty.valueDepth t v) (Fields.structValueDepth rest m)

def Fields.selDepth {d : Dir} {fb : Bool} : (fs : Fields) → fs.Sel d fb → Nat
  | .nil, e => e.elim
  | .cons _ _ t _, .inl p => Ty.valueDepth t p.val
  | .cons _ _ _ rest, .inr p => Fields.selDepth rest p
end

end Typical
