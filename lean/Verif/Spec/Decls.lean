import Verif.Types

/-!
# Specification: which declarations and which length-prefixed values a type contains
-/

namespace Typical

mutual
/-- Every declaration (struct or choice) occurring in the type satisfies `D`. -/
def CTy.AllDecls (D : Fields → Prop) : CTy → Prop
  | .array c => CTy.AllDecls D c
  | .struct fs => D fs ∧ Fields.AllDecls D fs
  | .choice fs => D fs ∧ Fields.AllDecls D fs
  | _ => True

def Ty.AllDecls (D : Fields → Prop) : Ty → Prop
  | .comp c => CTy.AllDecls D c
  | _ => True

def Fields.AllDecls (D : Fields → Prop) : Fields → Prop
  | .nil => True
  | .cons _ _ t rest => Ty.AllDecls D t ∧ Fields.AllDecls D rest
end

mutual
/-- Does the type contain `Bytes`, `String` or `[F64]`? -/
def CTy.hasBuffer : CTy → Bool
  | .bytes => true
  | .string => true
  | .units => false
  | .scalars s => s = .f64
  | .array c => CTy.hasBuffer c
  | .struct fs => Fields.hasBuffer fs
  | .choice fs => Fields.hasBuffer fs

def Ty.hasBuffer : Ty → Bool
  | .comp c => CTy.hasBuffer c
  | _ => false

def Fields.hasBuffer : Fields → Bool
  | .nil => false
  | .cons _ _ t rest => Ty.hasBuffer t || Fields.hasBuffer rest
end

end Typical
