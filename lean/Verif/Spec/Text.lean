import Verif.Spec.Modules

/-!
# Specification: text in blocks

Where in a generated file something is written: inside of which blocks.
-/

namespace Typical

/-- A block:

```
head {
…inner
}
```
indented by `ind` times `step`. -/
def blockText (step : Str) (ind : Nat) (head inner : Str) : Str :=
  (List.replicate ind step).flatten ++ head ++ " {\n".toList ++ inner ++ (List.replicate ind step).flatten ++ "}\n".toList

/-- Inside of the blocks `keyword n₁ { … keyword n₂ { … } … }` of the text, which are nested, there is a text as `P` says; `P` is also told how deep
it is. -/
def Inside (keyword step : Str) (P : Nat → Str → Prop) : Nat → List Str → Str → Prop
  | ind, [], text => P ind text
  | ind, n :: ns, text => ∃ inner, blockText step ind (keyword ++ n) inner <:+: text ∧ Inside keyword step P (ind + 1) ns inner

end Typical
