import Verif.TsGen.Print
import Verif.Props.GeneratedTypeScript
import Verif.Props.GeneratedFile

/-!
# Property C76: from schema files to running TypeScript code

The composition of everything on the way: `generate` reads, tokenizes, parses, resolves, validates, generates; the code which it writes is executed.
-/

namespace Typical

open TsGen

theorem findCode_mem {path : List Str} {c : Fn → Stms} : {l : List (List Str × (Fn → Stms))} → findCode path l = some c → (path, c) ∈ l
  | (p, e) :: l, h => by
    rw [findCode] at h
    split at h
    next hp => cases h; rw [← hp]; exact List.mem_cons_self
    next => exact List.mem_cons_of_mem _ (findCode_mem h)

theorem tsBlockText_line (ind : Nat) (head inner : Str) :
    blockText "  ".toList ind head inner = line ind (head ++ " {".toList) ++ inner ++ line ind "}".toList := by
  simp [blockText, line, indent]

mutual
theorem tsModuleText_contains (T : CharTable) {Q : DeclCode → Nat → Str → Prop} (hQ : ∀ c ind a b, a <:+: b → Q c ind a → Q c ind b)
    (hc : ∀ c ind, Q c ind (c.text ind)) {p : List Str} {code : Fn → Stms} : (m : Module) → (ind : Nat) → (ns : List Identifier) →
    (p, code) ∈ moduleCodes T ns m → ∃ (path : List Str) (c : DeclCode), p = modulePath T ns ++ path ++ [c.name] ∧ c.body = code ∧
      Inside "export namespace ".toList "  ".toList (Q c) ind path (TsGen.moduleText T ind ns m)
  | .mk children schema, ind, ns, h => by
    rw [moduleCodes] at h
    rw [TsGen.moduleText]
    rcases List.mem_append.mp h with h | h
    · obtain ⟨n, path, c, h1, h2, inner, h3, h4⟩ := tsModulesText_contains T hQ hc children ind ns (!schema.declarations.isEmpty) h
      exact ⟨n :: path, c, h1, h2, inner, infix_left h3, h4⟩
    · obtain ⟨d, hd, e⟩ := List.mem_map.mp h
      cases e
      refine ⟨[], TsGen.declCode T schema ⟨ns⟩ d, by rw [List.append_nil]; rfl, rfl, ?_⟩
      exact hQ _ _ _ _ (infix_right (infix_joinWith _ (List.mem_map.mpr ⟨d, hd, rfl⟩))) (hc _ _)
theorem tsModulesText_contains (T : CharTable) {Q : DeclCode → Nat → Str → Prop} (hQ : ∀ c ind a b, a <:+: b → Q c ind a → Q c ind b)
    (hc : ∀ c ind, Q c ind (c.text ind)) {p : List Str} {code : Fn → Stms} : (ms : Modules) → (ind : Nat) → (ns : List Identifier) → (more : Bool) →
    (p, code) ∈ modulesCodes T ns ms → ∃ (n : Str) (path : List Str) (c : DeclCode), p = modulePath T ns ++ (n :: path) ++ [c.name] ∧ c.body = code ∧
      Inside "export namespace ".toList "  ".toList (Q c) ind (n :: path) (TsGen.modulesText T ind ns more ms)
  | .nil, ind, ns, more, h => by rw [modulesCodes] at h; cases h
  | .cons name child rest, ind, ns, more, h => by
    rw [modulesCodes] at h
    unfold TsGen.modulesText
    rcases List.mem_append.mp h with h | h
    · obtain ⟨path, c, h1, h2, h3⟩ := tsModuleText_contains T hQ hc child (ind + 1) (ns ++ [name]) h
      refine ⟨tsPascal T name none, path, c, ?_, h2, _, ?_, h3⟩
      · rw [h1]; simp [modulePath]
      · rw [tsBlockText_line, List.append_assoc "export namespace ".toList]
        exact infix_left (infix_left List.infix_rfl)
    · obtain ⟨n, path, c, h1, h2, inner, h3, h4⟩ := tsModulesText_contains T hQ hc rest ind ns more h
      exact ⟨n, path, c, h1, h2, inner, infix_right h3, h4⟩
end

/-- The beginning of the signature of the function `f`. -/
def tsFnHead : Fn → Str
  | .size => "size(message: ".toList
  | .serialize => "serialize(message: ".toList
  | .deserialize => "deserialize(bytes: Deserializable): ".toList
  | .atlas => "atlas(message: ".toList
  | .serializeWithAtlasUnsafe => "serializeWithAtlasUnsafe(\n".toList
  | .deserializeUnsafe => "deserializeUnsafe(dataView: DataView): ".toList

/-- The text has the function `f` with this body. -/
def HasTsFn (f : Fn) (body : Stms) (ind : Nat) (text : Str) : Prop :=
  ∃ sig, tsFnHead f <+: sig ∧ blockText "  ".toList ind ("export function ".toList ++ sig) (body.text (ind + 1)) <:+: text

theorem tsDeclCode_hasFn (c : DeclCode) (f : Fn) (ind : Nat) :
    Inside "export namespace ".toList "  ".toList (HasTsFn f (c.body f)) ind [c.name] (c.text ind) := by
  refine ⟨joinWith "\n".toList ([Fn.size, .serialize, .deserialize, .atlas, .serializeWithAtlasUnsafe, .deserializeUnsafe].map (c.fnText (ind + 1))), ?_,
    c.signature (ind + 1) f, ?_, ?_⟩
  · rw [tsBlockText_line, DeclCode.text, List.append_assoc "export namespace ".toList]
    refine ⟨(c.types ind).flatMap (· ++ "\n".toList), [], ?_⟩
    simp only [List.append_assoc, List.append_nil]
  · cases f
    all_goals
      unfold tsFnHead DeclCode.signature
      simp only [List.append_assoc]
      generalize String.toList _ = a
      exact List.prefix_append a _
  · have : blockText "  ".toList (ind + 1) ("export function ".toList ++ c.signature (ind + 1) f) ((c.body f).text (ind + 1 + 1)) =
        c.fnText (ind + 1) f := by
      rw [tsBlockText_line, DeclCode.fnText]
    rw [this]
    exact infix_joinWith _ (List.mem_map.mpr ⟨f, by cases f <;> decide, rfl⟩)

theorem Inside.append {keyword step : Str} {P : Nat → Str → Prop} : {l : List Str} → {l' : List Str} → {ind : Nat} → {text : Str} →
    Inside keyword step (fun i t => Inside keyword step P i l' t) ind l text → Inside keyword step P ind (l ++ l') text
  | [], _, _, _, h => h
  | _ :: _, _, _, _, ⟨inner, h1, h2⟩ => ⟨inner, h1, Inside.append h2⟩

/-- **C76 (the text).** The generated program is what the text of the generated file says: for each function in each namespace of the program, in the
namespaces which its path says, there is a function with its name, whose body is the printed one; the functions at the top are there, too. -/
theorem C76_printed (T : CharTable) (version : Str) (S : Schemas) (path : List Str) (code : Fn → Stms) (h : (program T S).code path = some code) :
    (∀ f : Fn, Inside "export namespace ".toList "  ".toList (HasTsFn f (code f)) 0 path (tsText T version S)) ∧
    ∀ f : RuntimeFn, f.defText <:+: tsText T version S := by
  have hm := findCode_mem h
  have hne : Gen.Module.nonEmpty (buildTree S) = true := by
    revert hm
    cases buildTree S with
    | mk children schema =>
      cases children with
      | cons _ _ _ => intro _; rfl
      | nil =>
        intro hm
        rw [moduleCodes, modulesCodes, List.nil_append] at hm
        obtain ⟨d, hd, -⟩ := List.mem_map.mp hm
        rw [Gen.Module.nonEmpty]
        cases hs : schema.declarations with
        | nil => rw [hs] at hd; cases hd
        | cons _ _ => rfl
  have ht : tsText T version S = "// This file was automatically generated by Typical ".toList ++ version ++ headText.toList ++
      runtimeFns.flatMap RuntimeFn.defText ++ constantsText.toList ++ TsGen.moduleText T 0 [] (buildTree S) := by
    rw [tsText, if_pos hne]
  refine ⟨?_, ?_⟩
  · intro f
    obtain ⟨p, c, h1, h2, h3⟩ := tsModuleText_contains T
      (Q := fun c i t => Inside "export namespace ".toList "  ".toList (HasTsFn f (c.body f)) i [c.name] t)
      (fun c ind a b hab ⟨inner, g1, g2⟩ => ⟨inner, g1.trans hab, g2⟩) (fun c ind => tsDeclCode_hasFn c f ind) (buildTree S) 0 [] hm
    have h3 := h3.append
    rw [h1, ← h2, ht]
    change Inside _ _ _ _ (p ++ [c.name]) _
    revert h3
    cases p with
    | nil => exact fun ⟨inner, g1, g2⟩ => ⟨inner, infix_right g1, g2⟩
    | cons n l => exact fun ⟨inner, g1, g2⟩ => ⟨inner, infix_right g1, g2⟩
  · intro f
    rw [ht]
    refine infix_left (infix_left (infix_right ?_))
    have hf : f ∈ runtimeFns := by cases f <;> decide
    generalize runtimeFns = l at hf
    induction l with
    | nil => cases hf
    | cons g l ih =>
      rw [List.flatMap_cons]
      rcases List.mem_cons.mp hf with rfl | hf
      · exact infix_left List.infix_rfl
      · exact infix_right (ih hf)

/-- The hypothesis is met: the functions of the type of the example exist. -/
example : ((program asciiTable exampleSchemas).code ["Main".toList, "Shape".toList]).isSome = true := by decide +kernel

/-- **C76.** If `generate --typescript p` succeeds, the file `p` with the generated code has been written. If names do not collide, then for every declaration
of every file which is reachable by imports, and every value `v` of its `Out` type with content `t` which JavaScript can represent: the generated
`serialize` returns a buffer with the documented layout of `t`; and the generated `deserialize`, given this buffer, returns a value of the `In` type, whose
content is what a reader is shown of `t`. -/
theorem C76_generate {T : CharTable} {version : Str} {rustText : Schemas → Str} {fs : FileSystem} {fuel : Nat}
    {can : Effect → Bool} {path : FPath} {list : Bool} {p : FPath} {rust : Option FPath}
    (hs : (generateCode T rustText (tsText T version) fs fuel can path list rust (some p)).1 = .success) :
    ∃ E name L, loadEnv fs path = some (E, name) ∧ LoadedSpec T E [name] L ∧
      let S : Schemas := L.map (fun e => (e.1, e.2.schema))
      .write p (tsText T version S) ∈ (generateCode T rustText (tsText T version) fs fuel can path list rust (some p)).2 ∧
      (TsGen.NamesOk T S → ∀ e ∈ S, ∀ d ∈ e.2.declarations, ∃ c : CTy, S.Denotes (e.1.key, d.name.snakeCase) c ∧
        ∀ h v t, JsHolds T S .out (fun r => h[r]?) (e.1.key, d.name.snakeCase) v t → (t.wire false).length < 2 ^ 64 → t.JsSafe → ∀ scratch,
          ∃ h₁ r, h₁[r]? = some (.buf (t.wire false)) ∧
            Calls (program T S) (declPath T e.1.components d) .serialize [v] h scratch (.val (.buf r)) h₁ scratch ∧
          ∃ y h₂ scratch₂, JsHolds T S .inn (fun r => if h₁.length ≤ r then h₂[r]? else none) (e.1.key, d.name.snakeCase) y (c.view t) ∧
            Calls (program T S) (declPath T e.1.components d) .deserialize [.buf r] h₁ scratch (.val y) h₂ scratch₂) := by
  obtain ⟨L, hl, hw, -, hr⟩ := C44_success hs
  obtain ⟨E, name, hE, hspec⟩ := C40_loaded hl
  have hL := C40_establishes_loaded hl
  have hv := (C28_accepts_exactly_well_formed _ hL).mpr hw
  refine ⟨E, name, L, hE, hspec, hr p rfl, ?_⟩
  intro hN e he d hd
  have hA : TsAccepted T (L.map (fun e => (e.1, e.2.schema))) := ⟨hL, hv, hN⟩
  have hD : Schemas.Declares (L.map (fun e => (e.1, e.2.schema))) (e.1.key, d.name.snakeCase) e.1 e.2 d := ⟨he, hd, rfl⟩
  obtain ⟨c, h1, h2, h3⟩ := C30_wire_type _ hL hv _ _ _ _ hD
  refine ⟨c, h1, ?_⟩
  intro h v t hvt hsz hj scratch
  obtain ⟨-, h₁, r, -, -, g1, g2⟩ := C72_serialize hA h1 hD hvt hsz scratch
  obtain ⟨y, h₂, sc₂, -, k1, k2⟩ := C74_round_trip hA h1 hD hvt hsz hj g1 g2 (JsInput.buffer g1) scratch
  exact ⟨h₁, r, g1, g2, y, h₂, sc₂, k1, k2⟩

/-- A run with two files. -/
example : (generateCode asciiTable (fun _ => []) (tsText asciiTable "0.12.1".toList) untidyFs 4 (fun _ => true)
    (FPath.ofStr "p/a.t".toList) false none (some (FPath.ofStr "out/a.ts".toList))).1 = .success := by decide +kernel

/-- Names do not collide in it. -/
example : ∀ L, loadSchemas asciiTable untidyFs 4 (FPath.ofStr "p/a.t".toList) = .ok L →
    TsGen.NamesOk asciiTable (L.map (fun e => (e.1, e.2.schema))) := by
  intro L hL
  have h : (match loadSchemas asciiTable untidyFs 4 (FPath.ofStr "p/a.t".toList) with
    | .ok S => clearSchemas asciiTable (S.map (fun e => (e.1, e.2.schema))) && decide (validate (S.map (fun e => (e.1, e.2.schema))) = .ok [])
    | _ => false) = true := by decide +kernel
  rw [hL] at h
  simp only [Bool.and_eq_true, decide_eq_true_eq] at h
  exact (C72_names asciiTable_ascii _ (C40_establishes_loaded hL) h.2 (clearSchemas_spec h.1)).names

/-- The schemas before and after an edit are accepted (for C75). -/
example : TsAccepted asciiTable exampleSchemas ∧ TsAccepted asciiTable (editSchemas exampleEdit exampleSchemas) :=
  ⟨exampleSchemas_tsAccepted, C72_names asciiTable_ascii _ (by constructor <;> decide +kernel) (by decide +kernel) (clearSchemas_spec (by decide +kernel))⟩

end Typical
