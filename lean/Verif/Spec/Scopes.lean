import Verif.Spec.Names

/-!
# Specification: when names of different identifiers coincide in generated code; scopes of Rust

Independent of the model. Source: The Rust Reference, "Namespaces", "Use declarations", "Paths".
-/

namespace Typical

/-- A name (in snake case) without the underscores before digits: `a_1_b` becomes `a1_b`. -/
def dropDigitSeparators : Str → Str
  | [] => []
  | [c] => [c]
  | c :: d :: s => if c = '_' ∧ d.isDigit = true then dropDigitSeparators (d :: s) else c :: dropDigitSeparators (d :: s)

example : dropDigitSeparators "a_1_b_c_23".toList = "a1_b_c23".toList := by decide +kernel

/-- A path such as `std::io::ErrorKind`, without leading `::`, in a module whose items (in the namespace of types) are these: the
first name refers to the external crate unless there is such an item. -/
def RefersToCrate (items : List Str) (crateName : Str) : Prop := crateName ∉ items

/-- In a module, nothing may have the name of something imported with `use` (in the namespace of types). -/
def NoConflict (imported items : List Str) : Prop := ∀ x ∈ items, x ∉ imported

end Typical
