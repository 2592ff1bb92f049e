import Verif.TsGen.Values
import Verif.Gen.Program
import Verif.Props.Names

/-!
# Helper: the generated TypeScript program contains the code for each declaration
-/

namespace Typical.TsGen

/-- Names in the generated code do not collide, and refer to what they are meant to: different ways of writing the name of a directory or file give the
same name of a namespace; namespaces of declarations are different; so are the properties for the fields of each declaration; the functions and
constants at the top of the file and the built-in objects which the code uses are not hidden by namespaces; and references to types
resolve to the namespaces of these types. -/
structure NamesOk (T : CharTable) (S : Schemas) : Prop where
  modules : ∀ e ∈ S, ∀ e' ∈ S, ∀ i ∈ e.1.components, ∀ j ∈ e'.1.components, i.snakeCase = j.snakeCase → tsPascal T i none = tsPascal T j none
  declarations : (((buildTree S).written []).map (fun e => declPath T e.1 e.2)).Nodup
  fields : ∀ e ∈ S, ∀ d ∈ e.2.declarations, FieldNames T d.fields
  globals : ∀ e ∈ S, ∀ d ∈ e.2.declarations, (program T S).Clear (declPath T e.1.components d)
  references : ∀ e ∈ S, ∀ d ∈ e.2.declarations, ∀ f ∈ d.fields, ∀ i n k, f.type.variant.Mentions i n → e.2.RefersTo e.1 i n k →
    ∀ ns s d', S.Declares k ns s d' →
      tsResolve (program T S).exports (declPath T e.1.components d) (customPath T e.2 e.1 i n) = some (declPath T ns.components d')

mutual
theorem moduleCodes_paths (T : CharTable) (ns : List Identifier) : (m : Module) →
    (moduleCodes T ns m).map (·.1) = (m.written ns).map (fun e => declPath T e.1 e.2)
  | .mk children schema => by
    rw [moduleCodes, Module.written, List.map_append, List.map_append, modulesCodes_paths T ns children, List.map_map, List.map_map]
    rfl
theorem modulesCodes_paths (T : CharTable) (ns : List Identifier) : (m : Modules) →
    (modulesCodes T ns m).map (·.1) = (m.written ns).map (fun e => declPath T e.1 e.2)
  | .nil => rfl
  | .cons name child rest => by
    rw [modulesCodes, Modules.written, List.map_append, List.map_append, moduleCodes_paths T _ child, modulesCodes_paths T _ rest]
end

theorem findCode_of_mem {p : List Str} {c : Fn → Stms} : {l : List (List Str × (Fn → Stms))} → (l.map (·.1)).Nodup → (p, c) ∈ l → findCode p l = some c
  | (q, e) :: l, hn, h => by
    have hn' := List.nodup_cons.mp hn
    rw [findCode]
    rcases List.mem_cons.mp h with h | h
    · cases h; rw [if_pos rfl]
    · rw [if_neg (fun g => hn'.1 (by show q ∈ _; rw [g]; exact List.mem_map_of_mem h)), findCode_of_mem hn'.2 h]

theorem codes_of_get {T : CharTable} {ns : List Identifier} {k : Str} {m : Module} : {ms : Modules} → ms.get k = some m →
    ∃ i ∈ ms.names, i.snakeCase = k ∧ (∀ e ∈ moduleCodes T (ns ++ [i]) m, e ∈ modulesCodes T ns ms) ∧
      modulePath T (ns ++ [i]) ∈ modulesPaths T ns ms ∧ ∀ e ∈ modulePaths T (ns ++ [i]) m, e ∈ modulesPaths T ns ms
  | .nil, h => by cases h
  | .cons i c rest, h => by
    rw [Modules.get] at h
    rw [Modules.names, modulesCodes, modulesPaths]
    by_cases hk : i.snakeCase = k
    · rw [if_pos hk] at h
      cases h
      exact ⟨i, List.mem_cons_self, hk, fun e he => List.mem_append_left _ he, List.mem_cons_self,
        fun e he => List.mem_cons_of_mem _ (List.mem_append_left _ he)⟩
    · rw [if_neg hk] at h
      obtain ⟨j, h1, h2, h3, h4, h5⟩ := codes_of_get (T := T) (ns := ns) h
      exact ⟨j, List.mem_cons_of_mem _ h1, h2, fun e he => List.mem_append_right _ (h3 e he),
        List.mem_cons_of_mem _ (List.mem_append_right _ h4), fun e he => List.mem_cons_of_mem _ (List.mem_append_right _ (h5 e he))⟩

theorem codes_of_find {T : CharTable} {P : Identifier → Prop} {Q : Declaration → Prop} {m : Module} : {root : Module} → (path : List Str) →
    (ns : List Identifier) → root.Only P Q → root.find path = some m → ∃ ns' : List Identifier, ns'.map Identifier.snakeCase = path ∧ (∀ i ∈ ns', P i) ∧
      ∀ d ∈ m.schema.declarations, (declPath T (ns ++ ns') d, (declCode T m.schema ⟨ns ++ ns'⟩ d).body) ∈ moduleCodes T ns root
  | .mk children schema, [], ns, _, h => by
    cases h
    refine ⟨[], rfl, by simp, fun d hd => ?_⟩
    rw [moduleCodes, List.append_nil]
    exact List.mem_append_right _ (List.mem_map.mpr ⟨d, hd, rfl⟩)
  | .mk children schema, k :: path, ns, ho, h => by
    rw [Module.find_cons] at h
    rw [Module.Only] at ho
    cases hg : children.get k with
    | none => rw [hg] at h; cases h
    | some c =>
      rw [hg] at h
      obtain ⟨i, e1, e2, e3, -⟩ := codes_of_get (T := T) (ns := ns) hg
      obtain ⟨ns', e4, e5, e6⟩ := codes_of_find (T := T) (root := c) path (ns ++ [i]) (ho.1.get hg) h
      refine ⟨i :: ns', by rw [List.map_cons, e2, e4], fun j hj => ?_, fun d hd => ?_⟩
      · rcases List.mem_cons.mp hj with rfl | hj
        · exact ho.1.names _ e1
        · exact e5 j hj
      · have := e3 _ (e6 d hd)
        rw [List.append_assoc, List.singleton_append] at this
        rw [moduleCodes]
        exact List.mem_append_left _ this

theorem modulePath_eq {T : CharTable} : {a b : List Identifier} → a.map Identifier.snakeCase = b.map Identifier.snakeCase →
    (∀ i ∈ a, ∀ j ∈ b, i.snakeCase = j.snakeCase → tsPascal T i none = tsPascal T j none) → modulePath T a = modulePath T b
  | [], [], _, _ => rfl
  | [], _ :: _, h, _ => by cases h
  | _ :: _, [], h, _ => by cases h
  | i :: a, j :: b, h, hp => by
    rw [List.map_cons, List.map_cons, List.cons.injEq] at h
    unfold modulePath
    rw [List.map_cons, List.map_cons, hp i (by simp) j (by simp) h.1]
    exact congrArg _ (modulePath_eq h.2 fun i hi j hj => hp i (by simp [hi]) j (by simp [hj]))

/-- The generated program implements the declarations. -/
theorem program_implements {T : CharTable} {S : Schemas} (hl : S.Loaded) (hN : NamesOk T S) : Implements T S (program T S) := by
  intro k ns s d hd
  obtain ⟨hS, hmem, hk⟩ := hd
  have h1 := (buildTree_spec S hl.namespaces).1 _ hS
  unfold Module.schemaAt at h1
  rw [Option.map_eq_some_iff] at h1
  obtain ⟨m, hm, hs⟩ := h1
  have ho : (buildTree S).Only (fun i => ∃ e ∈ S, i ∈ e.1.components) (fun _ => True) :=
    buildTree_only S fun e he => ⟨fun i hi => ⟨e, he, hi⟩, fun _ _ => trivial⟩
  obtain ⟨l, hl1, hl2, hl3⟩ := codes_of_find (T := T) ns.key [] ho hm
  have hpath : modulePath T l = modulePath T ns.components := modulePath_eq hl1 fun i hi j hj h => by
    obtain ⟨e, he, hi⟩ := hl2 i hi
    exact hN.modules e he _ hS i hi j hj h
  have hdecl : declPath T l d = declPath T ns.components d := by unfold declPath; rw [hpath]
  refine ⟨⟨l⟩, ?_, hN.globals _ hS d hmem, ?_, hN.fields _ hS d hmem⟩
  · rw [← hdecl]
    refine findCode_of_mem ?_ ?_
    · rw [moduleCodes_paths]; exact hN.declarations
    · have := hl3 d (by rw [hs]; exact hmem)
      rw [List.nil_append, hs] at this
      exact this
  · intro f hf i n k' hmen href ns₂ s₂ d₂ hd₂
    have := hN.references _ hS d hmem f hf i n k' hmen href ns₂ s₂ d₂ hd₂
    have hc : customPath T s ⟨l⟩ i n = customPath T s ns i n := by
      unfold customPath namespacePath
      cases i with
      | none => exact congrArg (· ++ [tsPascal T n none]) hpath
      | some i => rfl
    rw [hc]
    exact this

end Typical.TsGen
