import Verif.Gen.Runtime

/-!
# The generated Rust file

`generate` of `/repo/src/generate_rust.rs`: the text at the top (lines 137-386, `Verif/Gen/Runtime.lean`), then the modules.
-/

namespace Typical.Gen

/-- The beginning of the fixed text, up to the version: line 138. -/
def runtimeHead : String := "// This file was automatically generated by Typical "

/-- Is there anything to write? Line 124. -/
def Module.nonEmpty : Module → Bool
  | .mk .nil schema => !schema.declarations.isEmpty
  | .mk (.cons _ _ _) _ => true

/-- `generate`: lines 104-404. -/
def rustText (T : CharTable) (version : Str) (S : Schemas) : Str :=
  if Module.nonEmpty (buildTree S) then
    runtimeHead.toList ++ version ++ Rt.runtimeText ++ "\n\n".toList ++ moduleText T 0 [] (buildTree S)
  else []

end Typical.Gen
