import Verif.TsGen.Types

/-!
# The definitions of types in the generated TypeScript code, by namespace
-/

namespace Typical.TsGen

mutual
/-- The declarations with their namespaces, as written: `/repo/src/generate_typescript.rs` lines 509-560. -/
def moduleDecls (ns : List Identifier) : Module → List (List Identifier × Schema × Declaration)
  | .mk children schema => modulesDecls ns children ++ schema.declarations.map (fun d => (ns, schema, d))
def modulesDecls (ns : List Identifier) : Modules → List (List Identifier × Schema × Declaration)
  | .nil => []
  | .cons name child rest => moduleDecls (ns ++ [name]) child ++ modulesDecls ns rest
end

/-- The definitions of types: lines 582-613, 975-1006. -/
def typeDefs (T : CharTable) (S : Schemas) : List ((List Str × Str) × TsDef) :=
  (moduleDecls [] (buildTree S)).flatMap (fun e =>
    typeSuffixes.map (fun x => ((modulePath T e.1, tsPascal T e.2.2.name (some x)), declDef T e.2.1 ⟨e.1⟩ e.2.2 x)))

/-- The names of types in the generated file: the first definition counts. -/
def tsEnv (T : CharTable) (S : Schemas) : TsEnv where
  namespaces := (program T S).exports
  types := fun id => ((typeDefs T S).find? (fun e => e.1 == id)).map (·.2)

/-- Types have different names, and references lead to the types which are meant. -/
structure TypeNames (T : CharTable) (S : Schemas) : Prop where
  types : ((buildTree S).tsTypes T).Nodup
  references : ∀ e ∈ S, ∀ d ∈ e.2.declarations, ∀ f ∈ d.fields, ∀ i n k, f.type.variant.Mentions i n → e.2.RefersTo e.1 i n k →
    ∀ ns s d', S.Declares k ns s d' → ∀ x : NameSuffix, tsPascal T n (some x) = tsPascal T d'.name (some x) ∧
      (tsEnv T S).lookup (modulePath T e.1.components) (namespacePath T e.2 e.1 i) (tsPascal T n (some x)) = some (modulePath T ns.components)

mutual
theorem moduleDecls_written (ns : List Identifier) : (m : Module) → (moduleDecls ns m).map (fun e => (e.1, e.2.2)) = m.written ns
  | .mk children schema => by
    rw [moduleDecls, Module.written, List.map_append, modulesDecls_written ns children, List.map_map]
    rfl
theorem modulesDecls_written (ns : List Identifier) : (m : Modules) → (modulesDecls ns m).map (fun e => (e.1, e.2.2)) = m.written ns
  | .nil => rfl
  | .cons name child rest => by
    rw [modulesDecls, Modules.written, List.map_append, moduleDecls_written _ child, modulesDecls_written _ rest]
end

theorem typeDefs_keys (T : CharTable) (S : Schemas) : (typeDefs T S).map (·.1) = (buildTree S).tsTypes T := by
  unfold typeDefs Module.tsTypes
  rw [← moduleDecls_written, List.flatMap_map, List.map_flatMap]
  simp only [List.map_map]
  rfl

theorem decls_of_get {ns : List Identifier} {k : Str} {m : Module} : {ms : Modules} → ms.get k = some m →
    ∃ i ∈ ms.names, i.snakeCase = k ∧ ∀ e ∈ moduleDecls (ns ++ [i]) m, e ∈ modulesDecls ns ms
  | .nil, h => by cases h
  | .cons i c rest, h => by
    rw [Modules.get] at h
    rw [Modules.names, modulesDecls]
    by_cases hk : i.snakeCase = k
    · rw [if_pos hk] at h
      cases h
      exact ⟨i, List.mem_cons_self, hk, fun e he => List.mem_append_left _ he⟩
    · rw [if_neg hk] at h
      obtain ⟨j, h1, h2, h3⟩ := decls_of_get (ns := ns) h
      exact ⟨j, List.mem_cons_of_mem _ h1, h2, fun e he => List.mem_append_right _ (h3 e he)⟩

theorem decls_of_find {P : Identifier → Prop} {Q : Declaration → Prop} {m : Module} : {root : Module} → (path : List Str) →
    (ns : List Identifier) → root.Only P Q → root.find path = some m → ∃ ns' : List Identifier, ns'.map Identifier.snakeCase = path ∧ (∀ i ∈ ns', P i) ∧
      ∀ d ∈ m.schema.declarations, (ns ++ ns', m.schema, d) ∈ moduleDecls ns root
  | .mk children schema, [], ns, _, h => by
    cases h
    refine ⟨[], rfl, by simp, fun d hd => ?_⟩
    rw [moduleDecls, List.append_nil]
    exact List.mem_append_right _ (List.mem_map.mpr ⟨d, hd, rfl⟩)
  | .mk children schema, k :: path, ns, ho, h => by
    rw [Module.find_cons] at h
    rw [Module.Only] at ho
    cases hg : children.get k with
    | none => rw [hg] at h; cases h
    | some c =>
      rw [hg] at h
      obtain ⟨i, e1, e2, e3⟩ := decls_of_get (ns := ns) hg
      obtain ⟨ns', e4, e5, e6⟩ := decls_of_find (root := c) path (ns ++ [i]) (ho.1.get hg) h
      refine ⟨i :: ns', by rw [List.map_cons, e2, e4], fun j hj => ?_, fun d hd => ?_⟩
      · rcases List.mem_cons.mp hj with rfl | hj
        · exact ho.1.names _ e1
        · exact e5 j hj
      · have := e3 _ (e6 d hd)
        rw [List.append_assoc, List.singleton_append] at this
        rw [moduleDecls]
        exact List.mem_append_left _ this

theorem find_of_mem {α β : Type} [BEq α] [LawfulBEq α] {a : α} {b : β} : {l : List (α × β)} → (l.map (·.1)).Nodup → (a, b) ∈ l →
    l.find? (fun e => e.1 == a) = some (a, b)
  | (a', b') :: l, hn, h => by
    have hn' := List.nodup_cons.mp hn
    rw [List.find?_cons]
    rcases List.mem_cons.mp h with h | h
    · cases h
      simp only [beq_self_eq_true]
    · have : (a' == a) = false := by
        rw [beq_eq_false_iff_ne]
        rintro rfl
        exact hn'.1 (List.mem_map.mpr ⟨_, h, rfl⟩)
      simp only [this]
      exact find_of_mem hn'.2 h

theorem namespacePath_congr {T : CharTable} {s : Schema} {ns ns' : Namespace} (h : modulePath T ns.components = modulePath T ns'.components) (i : Option Identifier) :
    namespacePath T s ns i = namespacePath T s ns' i := by
  cases i with
  | none => exact h
  | some i => rfl

theorem tyOf_congr {T : CharTable} {s : Schema} {ns ns' : Namespace} (h : modulePath T ns.components = modulePath T ns'.components) (x : NameSuffix) :
    (tv : TypeVariant) → tyOf T s ns x tv = tyOf T s ns' x tv
  | .array _ t => by unfold tyOf; rw [tyOf_congr h x t]
  | .custom i n => by unfold tyOf; rw [namespacePath_congr h]
  | .f64 => rfl
  | .bool => rfl
  | .bytes => rfl
  | .s64 => rfl
  | .string => rfl
  | .u64 => rfl
  | .unit => rfl

theorem declDef_congr {T : CharTable} {s : Schema} {ns ns' : Namespace} (h : modulePath T ns.components = modulePath T ns'.components) (d : Declaration) (x : NameSuffix) :
    declDef T s ns d x = declDef T s ns' d x := by
  have h1 : variantProps T s ns d x = variantProps T s ns' d x := by
    funext f
    unfold variantProps
    rw [tyOf_congr h]
  have h2 : memberTy T s ns x = memberTy T s ns' x := by
    funext f
    unfold memberTy
    rw [tyOf_congr h]
  unfold declDef
  rw [h1, h2]

/-- The types of a declaration are defined. -/
theorem types_defined {T : CharTable} {S : Schemas} (hl : S.Loaded) (hN : NamesOk T S) (hT : TypeNames T S) {k : List Str × Str} {ns : Namespace} {s : Schema}
    {d : Declaration} (hd : S.Declares k ns s d) (x : NameSuffix) :
    (tsEnv T S).types (modulePath T ns.components, tsPascal T d.name (some x)) = some (declDef T s ns d x) := by
  obtain ⟨hS, hmem, hk⟩ := hd
  have h1 := (buildTree_spec S hl.namespaces).1 _ hS
  unfold Module.schemaAt at h1
  rw [Option.map_eq_some_iff] at h1
  obtain ⟨m, hm, hs⟩ := h1
  have ho : (buildTree S).Only (fun i => ∃ e ∈ S, i ∈ e.1.components) (fun _ => True) :=
    buildTree_only S fun e he => ⟨fun i hi => ⟨e, he, hi⟩, fun _ _ => trivial⟩
  obtain ⟨l, hl1, hl2, hl3⟩ := decls_of_find ns.key [] ho hm
  have hpath : modulePath T l = modulePath T ns.components := modulePath_eq hl1 fun i hi j hj h => by
    obtain ⟨e, he, hi⟩ := hl2 i hi
    exact hN.modules e he _ hS i hi j hj h
  have hmem' : ((modulePath T ns.components, tsPascal T d.name (some x)), declDef T s ns d x) ∈ typeDefs T S := by
    have := hl3 d (by rw [hs]; exact hmem)
    rw [List.nil_append, hs] at this
    refine List.mem_flatMap.mpr ⟨_, this, List.mem_map.mpr ⟨x, by cases x <;> decide, ?_⟩⟩
    show ((modulePath T l, _), declDef T s ⟨l⟩ d x) = _
    rw [hpath, declDef_congr (ns := ⟨l⟩) (ns' := ns) hpath]
  unfold tsEnv
  dsimp only
  rw [find_of_mem (by rw [typeDefs_keys]; exact hT.types) hmem']
  rfl

/-- A type in the same namespace. -/
theorem lookup_self {E : TsEnv} {p : List Str} {n : Str} {d : TsDef} (h : E.types (p, n) = some d) : E.lookup p [] n = some p := by
  show ((List.range (p.length + 1)).reverse.find? (fun m => (E.types (p.take m, n)).isSome)).map (fun n => p.take n) = _
  rw [List.range_succ, List.reverse_append, List.reverse_singleton, List.singleton_append, List.find?_cons_of_pos (by rw [List.take_length, h]; rfl)]
  rw [Option.map_some, List.take_length]

section
variable {T : CharTable} (hT : T.Ascii)
include hT

theorem ClearNames.typeNames {S : Schemas} (hl : S.Loaded) (hv : validate S = .ok []) (h : ClearNames T S) : TypeNames T S := by
  have hp : S.Plain T := ⟨fun e he i hi => (h.files e he i hi).1, fun e he d hd => (h.declarations e he d hd).1,
    fun e he d hd f hf => (h.fields e he d hd f hf).1⟩
  obtain ⟨-, -, -, g4⟩ := C65_no_digit_words_partial hT S hl hp hv (fun e he i hi => (h.files e he i hi).2) (fun e he d hd => (h.declarations e he d hd).2)
    (fun e he d hd f hf => (h.fields e he d hd f hf).2)
  have hN := h.ok hT hl hv
  refine ⟨g4, ?_⟩
  intro e he d hd f hf i n k hmen href ns s d' hd' x
  have hr := hN.references e he d hd f hf i n k hmen href ns s d' hd'
  have hn := h.mentions e he d hd f hf i n hmen
  have hd'n := h.declarations _ hd'.1 d' hd'.2.1
  have key : ∃ t : Namespace, targetNamespace e.2 e.1 i = t ∧ t.key = ns.key ∧ n.snakeCase = d'.name.snakeCase ∧
      ∀ j ∈ t.components, (∃ a, PlainAscii a ∧ j = Identifier.ofStr T a) ∧ dropDigitSeparators j.snakeCase = j.snakeCase := by
    cases i with
    | none =>
      change k = _ at href
      rw [hd'.2.2] at href
      exact ⟨e.1, rfl, (Prod.mk.inj href).1.symm, (Prod.mk.inj href).2.symm, h.files e he⟩
    | some i =>
      obtain ⟨im, him, e1, t, ht, e2⟩ := href
      rw [hd'.2.2] at e2
      refine ⟨t, ?_, (Prod.mk.inj e2).1.symm, (Prod.mk.inj e2).2.symm, h.imports e he im him t ht⟩
      simp only [targetNamespace]
      rw [lookupIdent_of_mem (hl.importNames e he) him e1]
      simp [ht]
  obtain ⟨t, et, hkey, hname, ht⟩ := key
  have hmod : namespacePath T e.2 e.1 i = modulePath T ns.components := by
    unfold namespacePath
    rw [et]
    exact modulePath_eq hkey fun i hi j hj hs => (clear_pascal hT (ht i hi) (h.files _ hd'.1 j hj)).mpr hs
  have hpath : customPath T e.2 e.1 i n = declPath T ns.components d' := by
    unfold customPath declPath
    rw [hmod, (clear_pascal hT ⟨hn, by rw [hname]; exact hd'n.2⟩ hd'n).mpr hname]
  refine ⟨?_, ?_⟩
  · obtain ⟨a, ha, ea⟩ := hn
    obtain ⟨⟨b, hb, eb⟩, -⟩ := hd'n
    have := (tsType_eq_iff hT ha hb x x).mpr ⟨by rw [← ea, ← eb, hname], rfl⟩
    rwa [← ea, ← eb] at this
  · rw [hmod]
    rw [hpath] at hr
    cases hc : ns.components with
    | nil => exact absurd hc (h.rooted _ hd'.1)
    | cons i0 l =>
      rw [hc] at hr
      have h0 : (program T S).exports [] (tsPascal T i0 none) = true := by
        refine exports_first hd'.1 hc ?_
        rintro j ⟨e', he', hj⟩ hs
        exact (clear_pascal hT (h.files e' he' j hj) (h.files _ hd'.1 i0 (by rw [hc]; simp))).mpr hs
      have hr' := (tsResolve_iff _ _ _ (modulePath T l ++ [tsPascal T d'.name none]) h0).mp hr
      show tsResolve (program T S).exports _ (tsPascal T i0 none :: modulePath T l) = some (tsPascal T i0 none :: modulePath T l)
      rw [tsResolve_iff _ _ _ _ h0]
      intro m hm hm'
      have := hr' m hm (by unfold declPath; rw [List.length_append]; omega)
      unfold declPath at this
      rwa [List.take_append_of_le_length hm'] at this
end

end Typical.TsGen
