import Verif.Gen.AtlasLemmas
import Verif.Front.ModuleLemmas
import Verif.Front.DenoteLemmas
import Mathlib.Data.List.Nodup

/-!
# Helper: the generated program contains the code for each declaration
-/

namespace Typical.Gen

theorem rustSnake_map (l : List Identifier) : l.map rustSnake = (l.map Identifier.snakeCase).map rustEscape := by
  rw [List.map_map]; rfl

theorem names_of_get {k : Str} {m : Module} : {ms : Modules} → ms.get k = some m → ∃ i ∈ ms.names, i.snakeCase = k
  | .nil, h => by cases h
  | .cons i c rest, h => by
    rw [Modules.get] at h
    by_cases hk : i.snakeCase = k
    · exact ⟨i, List.mem_cons_self, hk⟩
    · rw [if_neg hk] at h
      obtain ⟨j, hj, e⟩ := names_of_get h
      exact ⟨j, List.mem_cons_of_mem _ hj, e⟩

theorem findText_of_get {k : Str} {m : Module} : {ms : Modules} → (ms.names.map rustSnake).Nodup → ms.get k = some m →
    ∃ i, i.snakeCase = k ∧ ms.findText (rustEscape k) = some (i, m)
  | .nil, _, h => by cases h
  | .cons i c rest, hn, h => by
    have hn' := List.nodup_cons.mp hn
    rw [Modules.get] at h
    by_cases hk : i.snakeCase = k
    · rw [if_pos hk] at h
      cases h
      exact ⟨i, hk, by rw [Modules.findText, if_pos (by rw [rustSnake, hk])]⟩
    · rw [if_neg hk] at h
      obtain ⟨j, hj, e⟩ := names_of_get h
      have hne : rustSnake i ≠ rustEscape k := fun g => hn'.1 (by
        show rustSnake i ∈ _
        rw [g, ← e]
        exact List.mem_map_of_mem hj)
      obtain ⟨i', e1, e2⟩ := findText_of_get hn'.2 h
      exact ⟨i', e1, by rw [Modules.findText, if_neg hne, e2]⟩

theorem findText_of_find {T : CharTable} {m : Module} : {root : Module} → (path : List Str) → (ns : List Identifier) →
    (∀ p m', root.find p = some m' → (m'.rustItems T).Nodup) → root.find path = some m →
    ∃ ns' : List Identifier, ns'.map Identifier.snakeCase = path ∧
      root.findText ns (path.map rustEscape) = some (ns ++ ns', m.schema)
  | .mk children schema, [], ns, _, h => by
    cases h
    exact ⟨[], rfl, by simp [Module.findText, Module.schema]⟩
  | .mk children schema, k :: path, ns, hn, h => by
    have h0 : ((Module.mk children schema).rustItems T).Nodup := hn [] _ rfl
    rw [Module.find_cons] at h
    cases hg : children.get k with
    | none => rw [hg] at h; cases h
    | some c =>
      rw [hg] at h
      have h1 : (children.names.map rustSnake).Nodup := (List.nodup_append.mp h0).1
      obtain ⟨i, e1, e2⟩ := findText_of_get h1 hg
      obtain ⟨ns', e3, e4⟩ := findText_of_find (T := T) (root := c) path (ns ++ [i]) (fun p m' hm => hn (k :: p) m' (by
        rw [Module.find_cons, hg]; exact hm)) h
      refine ⟨i :: ns', by rw [List.map_cons, e1, e3], ?_⟩
      rw [List.map_cons, Module.findText, e2]
      simp only
      rw [e4, List.append_assoc]
      rfl

theorem declCode_name (T : CharTable) (s : Schema) (ns : Namespace) (d : Declaration) (x : NameSuffix) :
    (declCode T s ns d).name x = rustPascal T d.name (some x) := by
  unfold declCode
  cases d.variant <;> rfl

theorem fn_eq (c : DeclCode) (name : Str) (f : Fn) : c.fn name f = if name = c.name f.owner then some (c.body f) else none := by
  cases f <;> rfl

theorem owner_mem (T : CharTable) (d : Declaration) (x : NameSuffix) : rustPascal T d.name (some x) ∈ d.rustTypes T := by
  cases x <;> simp [Declaration.rustTypes, typeSuffixes]

theorem findDecl (T : CharTable) (s : Schema) (ns : Namespace) (f : Fn) {d : Declaration} : {l : List Declaration} →
    (l.flatMap (Declaration.rustTypes T)).Nodup → d ∈ l →
    l.findSome? (fun d' => (declCode T s ns d').fn (rustPascal T d.name (some f.owner)) f) = some ((declCode T s ns d).body f)
  | d' :: l, hn, h => by
    rw [List.flatMap_cons, List.nodup_append] at hn
    rw [List.findSome?_cons, fn_eq, declCode_name]
    cases h with
    | head => rw [if_pos rfl]
    | tail _ h =>
      rw [if_neg (fun g => hn.2.2 _ (owner_mem T d' f.owner) _ (List.mem_flatMap.mpr ⟨d, h, owner_mem T d f.owner⟩) g.symm)]
      exact findDecl T s ns f hn.2.1 h

theorem resolve_text (target current : Namespace) (mods : List Str) (hm : mods = current.key.map rustEscape) :
    rustResolve mods (rustReference target current).1 ((rustReference target current).2.map rustSnake) =
      some (target.key.map rustEscape) := by
  obtain ⟨h1, h2⟩ := commonComponents_spec target.components current.components
  subst hm
  unfold rustResolve rustReference relativizeNamespace Namespace.key
  simp only [List.length_map]
  rw [if_pos (Nat.sub_le _ _), Nat.sub_sub_self h1, rustSnake_map, ← List.map_take, ← List.map_append, h2]

theorem targetNamespace_key {s : Schema} {ns ns' : Namespace} {i : Option Identifier} {n : Identifier} {k : List Str × Str}
    (hn : (s.imports.map (fun i => i.1.snakeCase)).Nodup) (hk : ns'.key = ns.key) (h : s.RefersTo ns i n k) :
    (targetNamespace s ns' i).key = k.1 := by
  cases i with
  | none =>
    cases h
    exact hk
  | some i =>
    obtain ⟨e, he, h1, n', h2, rfl⟩ := h
    rw [targetNamespace, lookupIdent_of_mem hn he h1]
    simp only [h2, Option.getD_some]

/-- The generated program implements the declarations. -/
theorem program_implements {T : CharTable} {S : Schemas} (hl : S.Loaded) (hN : NamesOk T S)
    (hb : ∀ e ∈ S, ∀ d ∈ e.2.declarations, ∀ f ∈ d.fields, f.index < 2 ^ 64) : Implements T S (program T S) := by
  intro k ns s d hd
  obtain ⟨hS, hmem, hk⟩ := hd
  have h1 := (buildTree_spec S hl.namespaces).1 _ hS
  unfold Module.schemaAt at h1
  rw [Option.map_eq_some_iff] at h1
  obtain ⟨m, hm, hs⟩ := h1
  obtain ⟨l, hl1, hl2⟩ := findText_of_find (T := T) ns.key [] hN.items hm
  have hitems : (s.declarations.flatMap (Declaration.rustTypes T)).Nodup := by
    have := hN.items _ _ hm
    cases m with
    | mk children schema =>
      cases hs
      exact (List.nodup_append.mp this).2.1
  refine ⟨⟨l⟩, ?_, ?_, ?_, ?_, ?_, ?_⟩
  · rw [rustSnake_map, rustSnake_map, hl1]; rfl
  · intro f
    show program T S (ns.components.map rustSnake, rustPascal T d.name (some f.owner)) f = _
    unfold program
    simp only
    rw [rustSnake_map]
    erw [hl2]
    simp only [hs, List.nil_append]
    exact findDecl T s ⟨l⟩ f hitems hmem
  · intro f hf i n k' hmen href ns₂ s₂ d₂ hd₂
    have ht := targetNamespace_key (ns' := ⟨l⟩) (hl.importNames _ hS) hl1 href
    refine ⟨?_, ?_⟩
    · show rustResolve _ (rustReference (targetNamespace s ⟨l⟩ i) ⟨l⟩).1 ((rustReference (targetNamespace s ⟨l⟩ i) ⟨l⟩).2.map rustSnake) = _
      rw [resolve_text _ _ _ (by rw [rustSnake_map]; show _ = (l.map Identifier.snakeCase).map rustEscape; rw [hl1]; rfl), ht, rustSnake_map,
        hd₂.2.2]
      rfl
    · exact hN.references _ hS d hmem f hf i n k' hmen href ns₂ s₂ d₂ hd₂ .in_
  · intro hv
    have := hN.members _ hS d hmem hv
    exact this
  · intro hv
    exact hN.variants _ hS d hmem hv
  · intro f hf
    exact hb _ hS d hmem f hf

end Typical.Gen
