import Verif.Gen.Sem
import Verif.Front.Modules

/-!
# Specification: types of generated Rust code, and their values

Written from the Rust Reference ("Type paths", "Structs", "Enumerations", "Tuple types", and `std` for `Vec`, `Option`, `Box`, `String`), for the
types which generated code mentions. A type which is written in a module (`TypeEx`) is a type (`RT`) once its path is resolved;
`HasType E τ v`: `v` is a value of the type `τ`, given the definitions `E`.

Simplifications: references are not distinguished from what they refer to in values (as in `Verif.Gen.Sem`); lengths of vectors are bounded by what
fits into `usize` only for elements without size (others exhaust the memory before); `usize` has 64 bits.
-/

namespace Typical.Gen

/-- Types. -/
inductive RT
  | usize
  | bool
  | f64
  | i64
  | u64
  | u8
  | unit
  | string
  | vec (t : RT)
  | option (t : RT)
  | box (t : RT)
  | pair (a b : RT)
  | named (id : TypeId)
  /-- `&t`, `&mut t` -/
  | ref (t : RT)
  | refMut (t : RT)
  /-- `[u8]`, `[u8; 8]` -/
  | slice
  | array
  /-- An iterator with items of type `t` -/
  | iter (t : RT)
  /-- `::std::io::Result<t>`, `::std::io::Error` -/
  | result (t : RT)
  | error
  /-- `::std::io::Take<t>` -/
  | take (t : RT)
  /-- The type parameter `T: ::std::io::BufRead`, and `T: ::std::io::Write` -/
  | source
  | sink
  /-- `!` -/
  | never
  deriving DecidableEq

/-- The type which is written in the module `mod`, if the path is one. -/
def TypeEx.resolve (mod : List Str) : TypeEx → Option RT
  | .usize => some .usize
  | .bool => some .bool
  | .f64 => some .f64
  | .i64 => some .i64
  | .u64 => some .u64
  | .unit => some .unit
  | .string => some .string
  | .bytes => some (.vec .u8)
  | .vec t => (t.resolve mod).map .vec
  | .option t => (t.resolve mod).map .option
  | .box t => (t.resolve mod).map .box
  | .pair a b =>
    match a.resolve mod, b.resolve mod with
    | some a, some b => some (.pair a b)
    | _, _ => none
  | .path p => (rustResolve mod p.supers p.modules).map (fun m => .named (m, p.name))

/-- The definitions of types. -/
abbrev Items := TypeId → Option Item

mutual
/-- `v` is a value of this type. -/
inductive HasType (E : Items) : RT → Val → Prop
  | usize {n} : n < 2 ^ 64 → HasType E .usize (.usize n)
  | bool {b} : HasType E .bool (.bool b)
  | f64 {x} : HasType E .f64 (.f64 x)
  | i64 {x} : HasType E .i64 (.i64 x)
  | u64 {x} : HasType E .u64 (.u64 x)
  | unit : HasType E .unit .unit
  | string {b} : validUtf8 b = true → HasType E .string (.str b)
  | bytes {b} : HasType E (.vec .u8) (.bytes b)
  | vec {t l} : t ≠ .u8 → (t = .unit → l.length < 2 ^ 64) → HasTypes E t l → HasType E (.vec t) (.vec l)
  | none {t} : HasType E (.option t) .none
  | some {t v} : HasType E t v → HasType E (.option t) (.some v)
  | box {t v} : HasType E t v → HasType E (.box t) v
  | pair {a b v w} : HasType E a v → HasType E b w → HasType E (.pair a b) (.pair v w)
  | struct {id name members l} : E id = some (.struct name members) → HasMembers E id.1 members l →
    HasType E (.named id) (.struct id l)
  | variant {id name variants n ts l} : E id = some (.enum name variants) → (n, ts) ∈ variants → HasComponents E id.1 ts l →
    HasType E (.named id) (.variant id n l)
/-- They are values of this type. -/
inductive HasTypes (E : Items) : RT → List Val → Prop
  | nil {t} : HasTypes E t []
  | cons {t v l} : HasType E t v → HasTypes E t l → HasTypes E t (v :: l)
/-- They are the members of a struct which is defined in the module `mod`. -/
inductive HasMembers (E : Items) : List Str → List (Str × TypeEx) → List (Str × Val) → Prop
  | nil {mod} : HasMembers E mod [] []
  | cons {mod n t τ v ts l} : t.resolve mod = some τ → HasType E τ v → HasMembers E mod ts l →
    HasMembers E mod ((n, t) :: ts) ((n, v) :: l)
/-- They are the components of a variant of an enumeration which is defined in the module `mod`. -/
inductive HasComponents (E : Items) : List Str → List TypeEx → List Val → Prop
  | nil {mod} : HasComponents E mod [] []
  | cons {mod t τ v ts l} : t.resolve mod = some τ → HasType E τ v → HasComponents E mod ts l →
    HasComponents E mod (t :: ts) (v :: l)
end

end Typical.Gen
