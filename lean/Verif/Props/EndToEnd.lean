import Verif.Props.Driver
import Verif.Props.Evolution

/-!
# Property C58: from schema files to messages

The chain of all components: the files are read, tokenized, parsed, their imports resolved, they are validated, and code is generated for their
declarations.
-/

namespace Typical

/-- **C58.** If `generate` succeeds, then every declaration in every file reachable by imports from the given file has exactly one wire
type; every message of this type is serialised to the same bytes by the generated Rust and TypeScript code, and these bytes are read back
by the generated Rust and TypeScript code as what a reader sees of the message that was written (`view`: for an asymmetric field of a choice,
the fallback is not exposed). (Messages must be within the limits of memory, and for
TypeScript representable in JavaScript.) -/
theorem C58_generated_code {T : CharTable} {rustText tsText : Schemas → Str} {fs : FileSystem} {fuel : Nat}
    {can : Effect → Bool} {path : FPath} {list : Bool} {rust ts : Option FPath}
    (hs : (generateCode T rustText tsText fs fuel can path list rust ts).1 = .success) :
    ∃ E name S, loadEnv fs path = some (E, name) ∧ loadSchemas T fs fuel path = .ok S ∧ LoadedSpec T E [name] S ∧
      ∀ e ∈ S, ∀ d ∈ e.2.schema.declarations, ∃ c : CTy,
        Schemas.Denotes (S.map (fun e => (e.1, e.2.schema))) (e.1.key, d.name.snakeCase) c ∧
        (∀ c', Schemas.Denotes (S.map (fun e => (e.1, e.2.schema))) (e.1.key, d.name.snakeCase) c' → c' = c) ∧
        ∀ (m : c.Msg .out) (lim : Nat), lim < 2 ^ 64 → 8 * size c m ≤ lim → ∃ bs v,
          serialize c m = some bs ∧ Ts.serialize c m = some bs ∧
          deserialize lim c bs = .ok v ∧ c.tree v = c.view (c.tree m) ∧
          ((c.tree m).JsSafe → Ts.deserialize c bs = .ok v) := by
  obtain ⟨S, hl, hw, -, -⟩ := C44_success hs
  obtain ⟨E, name, hE, hspec⟩ := C40_loaded hl
  have hL := C40_establishes_loaded hl
  have hv := (C28_accepts_exactly_well_formed _ hL).mpr hw
  refine ⟨E, name, S, hE, hl, hspec, ?_⟩
  intro e he d hd
  obtain ⟨c, h1, h2, h3⟩ := C30_wire_type _ hL hv (e.1.key, d.name.snakeCase) e.1 e.2.schema d
    ⟨List.mem_map.mpr ⟨e, he, rfl⟩, hd, rfl⟩
  refine ⟨c, h1, h3, ?_⟩
  intro m lim hlim hm
  obtain ⟨bs, g1, g2⟩ := C06_round_trip c h2 m lim hlim hm
  refine ⟨bs, _, g1, (C24_same_bytes c h2 m (by omega)).trans g1, g2, ?_, ?_⟩
  · obtain ⟨bs', v, k1, k2, k3⟩ := C06_round_trip_content c h2 m lim hlim hm
    rw [g1] at k1; injection k1 with k1; subst k1
    rw [g2] at k2; injection k2 with k2; subst k2
    exact k3
  · intro hj
    obtain ⟨bs', k1, k2⟩ := C25_round_trip c h2 m (by omega) hj
    rw [g1] at k1; injection k1 with k1; subst k1
    exact k2.2

/-- The premise holds of a run with two files. -/
example : (generateCode asciiTable (fun _ => "rust".toList) (fun _ => "ts".toList) untidyFs 4 (fun _ => true)
    (FPath.ofStr "p/a.t".toList) false (some (FPath.ofStr "out/a.rs".toList)) none).1 = .success := by decide +kernel

end Typical
