import Mathlib.Data.List.Perm.Subperm
import Verif.Front.LoaderLemmas
import Verif.Spec.Schema
import Verif.Props.Format

/-!
# Properties of the loader (C40, C41)

`T` is the Unicode table, `fs` the file system, `fuel` a bound on the number of steps of the loop.
-/

namespace Typical

/-- The loop starts with the invariant. -/
theorem loadInv_start {T : CharTable} {E : LoadEnv} {name : Str} {ns : Namespace} (h : pathToNamespace T [name] = some ns) :
    LoadInv T E [name] ⟨[(ns, [name])], [ns.key], []⟩ [] [] := by
  refine ⟨?_, by simp, by simp, by simp, .nil, by simp, by simp, by simp, by simp, fun _ => .inl ⟨_, List.mem_singleton.mpr rfl, rfl⟩⟩
  intro e he
  simp only [List.mem_singleton] at he
  subst he
  exact ⟨.root, h⟩

theorem loadSchemas_spec {T : CharTable} {fs : FileSystem} {fuel : Nat} {path : FPath} {E : LoadEnv} {name : Str}
    (hE : loadEnv fs path = some (E, name)) {ns : Namespace} (hn : pathToNamespace T [name] = some ns) :
    LoadSpec T E [name] fuel (loadSchemas T fs fuel path) := by
  have := loadLoop_spec fuel _ [] [] (loadInv_start (E := E) hn) (by simp)
  unfold loadSchemas
  rw [hE]
  dsimp only
  rw [hn]
  simpa using this

/-! ### What namespaces and paths are -/

theorem stemOf_iff {name stem : Str} : WithoutExtension name stem ↔ stemOf name = stem := by
  have hrev : ∀ (r : Str), (∃ ext s, r = ext ++ '.' :: s ∧ '.' ∉ ext) ∨ '.' ∉ r := by
    intro r
    induction r with
    | nil => exact .inr (by simp)
    | cons c r ih =>
      by_cases hc : c = '.'
      · exact .inl ⟨[], r, by rw [hc]; rfl, by simp⟩
      · rcases ih with ⟨ext, s, h1, h2⟩ | h
        · exact .inl ⟨c :: ext, s, by rw [h1]; rfl, by simp [Ne.symm hc, h2]⟩
        · exact .inr (by simp [Ne.symm hc, h])
  have hneg : ∀ ext : Str, '.' ∉ ext → ∀ c ∈ ext, (c != '.') = true := by
    intro ext h c hc
    simp only [bne_iff_ne]
    intro h'; subst h'; exact h hc
  have hdot : ∀ (s ext : Str), '.' ∉ ext → stemOf (s ++ '.' :: ext) = if s = [] then '.' :: ext else s := by
    intro s ext h
    have hr : (s ++ '.' :: ext).reverse = ext.reverse ++ '.' :: s.reverse := by simp
    have hx := hneg ext.reverse (by simpa using h)
    rw [stemOf, hr, List.takeWhile_append_of_pos hx, List.dropWhile_append_of_pos hx]
    simp only [List.takeWhile_cons, List.dropWhile_cons, bne_self_eq_false, Bool.false_eq_true, if_false, List.append_nil,
      List.reverse_reverse, List.length_append, List.length_cons, List.reverse_cons, List.dropLast_concat]
    rw [if_neg (by omega)]
    by_cases hs : s = []
    · subst hs; rw [if_pos rfl, if_pos rfl]; rfl
    · rw [if_neg hs, if_neg hs]
  have hplain : ∀ s : Str, '.' ∉ s → stemOf s = s := by
    intro s h
    have hx := hneg s.reverse (by simpa using h)
    have : s.reverse.takeWhile (fun c => c != '.') = s.reverse := by
      simpa using List.takeWhile_append_of_pos (l₂ := []) hx
    rw [stemOf, this, List.reverse_reverse, if_pos rfl]
  constructor
  · rintro (⟨s, e, h1, h2⟩ | ⟨_, h⟩ | ⟨e, h⟩)
    · rw [hdot _ _ h2, if_neg h1]
    · exact hplain _ h
    · have := hdot [] e h
      simpa using this
  · intro h
    subst h
    rcases hrev name.reverse with ⟨e, s, h1, h2⟩ | h
    · have hn : name = s.reverse ++ '.' :: e.reverse := by
        have := congrArg List.reverse h1
        simpa using this
      have h2 : '.' ∉ e.reverse := by simpa using h2
      rw [hn, hdot _ _ h2]
      by_cases hs : s.reverse = []
      · rw [if_pos hs, hs]
        exact .hidden _ h2
      · rw [if_neg hs]
        exact .extension _ _ hs h2
    · have h : '.' ∉ name := by simpa using h
      rw [hplain _ h]
      exact .plain _ h

/-- **C40 (namespaces).** The namespace of a file consists of the names of the directories and of the name of the file without
its extension. (The exceptions are files like `..t` and `...t`.) -/
theorem C40_namespace (T : CharTable) (dirs : List Str) {name stem : Str} (h : WithoutExtension name stem)
    (h1 : stem ≠ ['.']) (h2 : stem ≠ ['.', '.']) :
    pathToNamespace T (dirs ++ [name]) = some ⟨dirs.map (Identifier.ofStr T) ++ [Identifier.ofStr T stem]⟩ := by
  rw [pathToNamespace, List.getLast?_append, List.getLast?_singleton]
  dsimp only [Option.some_or]
  rw [stemOf_iff.mp h, if_neg h2, if_neg h1, List.dropLast_concat, List.map_append]
  rfl

example : WithoutExtension "schema.v2.t".toList "schema.v2".toList :=
  .extension "schema.v2".toList "t".toList (by decide) (by decide)

theorem pathParts_spec {s : Str} {cs : List Str} (h : PathParts s cs) : pathParts s = cs := by
  have hgo : ∀ (c s : Str), '/' ∉ c → splitOn '/' (c ++ '/' :: s) = c :: splitOn '/' s := by
    intro c s h
    induction c with
    | nil => simp [splitOn]
    | cons a c ih =>
      have ha : a ≠ '/' := fun e => h (by simp [e])
      have := ih (fun e => h (by simp [e]))
      simp only [List.cons_append, splitOn, this, beq_iff_eq, ha, if_false]
  have hone : ∀ c : Str, '/' ∉ c → splitOn '/' c = [c] := by
    intro c h
    induction c with
    | nil => rfl
    | cons a c ih =>
      have ha : a ≠ '/' := fun e => h (by simp [e])
      have := ih (fun e => h (by simp [e]))
      simp only [splitOn, this, beq_iff_eq, ha, if_false]
  induction h with
  | last c h1 h2 h3 =>
    rw [pathParts, hone _ h3]
    simp [h1, h2]
  | cons c s cs h1 h2 h3 _ ih =>
    rw [pathParts] at ih
    rw [pathParts, hgo _ _ h3, List.filter_cons_of_pos (by simp [h1, h2]), ih]

/-- **C40 (imports).** A relative path `a/b.t` in the file `dir/x.t` denotes the file to which `base/dir/a/b.t` leads, where
`base` is the directory of the file given by the user. An absolute path denotes the file to which it leads. In both cases this file
must be in (a subdirectory of) the canonical base directory, and it is identified by its path relative to this. -/
theorem C40_import_target (E : LoadEnv) (dirs : List Str) (name : Str) (imp : Import) {text : Str} {cs : List Str}
    (hc : PathParts text cs) (target : List Str) :
    (imp.path = text → text.head? ≠ some '/' → (ImportDenotes E (dirs ++ [name]) imp target ↔
      E.fs.canonicalize ⟨E.base.absolute, E.base.parts ++ dirs ++ cs⟩ = some (E.canonicalBase ++ target))) ∧
    (imp.path = '/' :: text → (ImportDenotes E (dirs ++ [name]) imp target ↔
      E.fs.canonicalize ⟨true, cs⟩ = some (E.canonicalBase ++ target))) := by
  constructor
  · intro h1 h2
    have : FPath.ofStr imp.path = ⟨false, cs⟩ := by
      rw [FPath.ofStr, h1, pathParts_spec hc]
      simp [h2]
    rw [ImportDenotes, this, List.dropLast_concat]
    simp [FPath.join, FPath.rel]
  · intro h1
    have : FPath.ofStr imp.path = ⟨true, cs⟩ := by
      have : pathParts ('/' :: text) = cs := by
        rw [← pathParts_spec hc]
        simp [pathParts, splitOn]
      rw [FPath.ofStr, h1, this]
      rfl
    rw [ImportDenotes, this]
    simp [FPath.join]

example : PathParts "../a/b.t".toList ["..".toList, "a".toList, "b.t".toList] :=
  .cons "..".toList _ _ (by decide) (by decide) (by decide) (.cons "a".toList _ _ (by decide) (by decide) (by decide)
    (.last "b.t".toList (by decide) (by decide) (by decide)))

/-- **C40 (reading).** The text of a loaded file is what the file system has at `base/path`, where `base` is the directory of the file
given by the user. -/
theorem C40_read {T : CharTable} {E : LoadEnv} {path : List Str} {c : Str} {s : Schema} (h : Parses T E path c s) :
    ∃ q, E.fs.canonicalize ⟨E.base.absolute, E.base.parts ++ path⟩ = some q ∧ E.fs.contents q = some c := by
  have h1 := h.1
  rw [FileSystem.read, Option.bind_eq_some_iff] at h1
  exact h1

/-- **C40 (environment).** The base directory is the given path without its last component, which is the name of the main file; the
canonical base directory is where the given path leads, without the last component. -/
theorem C40_environment {fs : FileSystem} {path : FPath} {E : LoadEnv} {name : Str} :
    loadEnv fs path = some (E, name) ↔ E.fs = fs ∧ path = ⟨E.base.absolute, E.base.parts ++ [name]⟩ ∧ name ≠ ['.', '.'] ∧
      ∃ target, fs.canonicalize path = some (E.canonicalBase ++ [target]) := by
  constructor
  · intro h
    unfold loadEnv FPath.parent FPath.fileName at h
    split at h
    · cases h
    · rename_i base hb
      split at hb
      · cases hb
      · rename_i hne
        injection hb with hb
        split at h
        · cases h
        · rename_i cb hcb
          split at h
          · cases h
          · rename_i nm hnm
            injection h with h; injection h with h1 h2
            subst h1; subst h2
            obtain ⟨ps, x, hx⟩ : ∃ ps x, path.parts = ps ++ [x] := by
              have := List.dropLast_concat_getLast hne
              exact ⟨_, _, this.symm⟩
            rw [hx, List.getLast?_append, List.getLast?_singleton] at hnm
            dsimp only [Option.some_or] at hnm
            split at hnm
            · cases hnm
            · rename_i hdd
              injection hnm with hnm
              subst hnm
              refine ⟨rfl, ?_, hdd, ?_⟩
              · rw [← hb, hx, List.dropLast_concat]
                cases path
                dsimp only at hx ⊢
                rw [hx]
              · rw [Option.bind_eq_some_iff] at hcb
                obtain ⟨c, hc1, hc2⟩ := hcb
                split at hc2
                · cases hc2
                · rename_i hcne
                  injection hc2 with hc2
                  rw [← hc2]
                  exact ⟨c.getLast hcne, by rw [hc1, List.dropLast_concat_getLast]⟩
  · rintro ⟨rfl, hp, hdd, t, ht⟩
    unfold loadEnv FPath.parent FPath.fileName
    rw [ht]
    have : path.parts = E.base.parts ++ [name] := by rw [hp]
    have ha : path.absolute = E.base.absolute := by rw [hp]
    rw [this, ha]
    simp [hdd]

/-- What the result of a successful run contains. -/
structure LoadedSpec (T : CharTable) (E : LoadEnv) (root : List Str) (S : List (Namespace × LoadedFile)) : Prop where
  /-- Each entry is a file reachable by imports from the root, under the namespace of its path, with its text and its
  schema, in which all imports are resolved to what they denote. -/
  sound : ∀ e ∈ S, ReachableFile T E root e.2.path ∧ pathToNamespace T e.2.path = some e.1 ∧
    ∃ s, Parses T E e.2.path e.2.contents s ∧ ResolvedSchema T E e.2.path s e.2.schema
  /-- The root is loaded. -/
  root : ∃ e ∈ S, e.2.path = root
  /-- For each import a file with the namespace of the import is loaded. -/
  closed : ∀ e ∈ S, ∀ i ∈ e.2.schema.imports, ∃ ns, i.2.namespace_ = some ns ∧ ∃ e' ∈ S, e'.1.key = ns.key
  /-- There is at most one entry for each namespace; they are in order. -/
  sorted : S.Pairwise (fun a b => keyBefore a.1.key b.1.key = true)

/-- **C40 (soundness and closure).** -/
theorem C40_loaded {T : CharTable} {fs : FileSystem} {fuel : Nat} {path : FPath} {S : List (Namespace × LoadedFile)}
    (h : loadSchemas T fs fuel path = .ok S) :
    ∃ E name, loadEnv fs path = some (E, name) ∧ LoadedSpec T E [name] S := by
  cases hE : loadEnv fs path with
  | none => rw [loadSchemas, hE] at h; cases h
  | some r =>
    obtain ⟨E, name⟩ := r
    cases hn : pathToNamespace T [name] with
    | none => rw [loadSchemas, hE] at h; dsimp only at h; rw [hn] at h; cases h
    | some ns =>
      have hs := loadSchemas_spec (fuel := fuel) hE hn
      rw [h] at hs
      obtain ⟨done, inv⟩ := hs
      refine ⟨E, name, rfl, ?_, ?_, ?_, inv.sorted⟩
      · intro e he
        obtain ⟨a, b, s, c, d⟩ := inv.entries e he
        exact ⟨a, b, s, c, (d rfl).1⟩
      · rcases inv.root rfl with ⟨e, he, _⟩ | h
        · cases he
        · exact h
      · intro e he i hi
        obtain ⟨a, b, s, c, d⟩ := inv.entries e he
        obtain ⟨d1, d2⟩ := d rfl
        obtain ⟨j, hj, hj1, q, ns, hj2, hj3, hj4⟩ := each_mem_right d1.imports i hi
        have hns : i.2.namespace_ = some ns := by rw [hj4]
        obtain ⟨e', he', hk⟩ := List.mem_map.mp (inv.all rfl _ (d2 i hi ns hns))
        exact ⟨ns, hns, e', he', hk⟩

/-- **C40 (completeness).** If no two reachable files have the same namespace, then all reachable files are loaded. -/
theorem C40_all_reachable {T : CharTable} {E : LoadEnv} {root : List Str} {S : List (Namespace × LoadedFile)}
    (h : LoadedSpec T E root S)
    (hd : ∀ p q n m, ReachableFile T E root p → ReachableFile T E root q → pathToNamespace T p = some n →
      pathToNamespace T q = some m → n.key = m.key → p = q) :
    ∀ p, ReachableFile T E root p ↔ ∃ e ∈ S, e.2.path = p := by
  intro p
  constructor
  · intro hp
    induction hp with
    | root => exact h.root
    | @step p c s i q hp hpa hi hden ih =>
      obtain ⟨e, he, rfl⟩ := ih
      obtain ⟨h1, h2, s', h3, h4⟩ := h.sound e he
      obtain ⟨-, rfl⟩ := parses_unique hpa h3
      have key : ∀ {is is' : List (Identifier × Import)}, Each (fun i i' => i'.1 = i.1 ∧ ∃ q ns, ImportDenotes E e.2.path i.2 q ∧
          pathToNamespace T q = some ns ∧ i'.2 = { i.2 with namespace_ := some ns }) is is' → i ∈ is →
          ∃ i' ∈ is', ∃ ns, pathToNamespace T q = some ns ∧ i'.2.namespace_ = some ns := by
        intro is is' hE
        induction hE with
        | nil => intro hi; cases hi
        | cons h0 _ ih =>
          intro hi
          rcases List.mem_cons.mp hi with rfl | hi
          · obtain ⟨-, q', ns, k1, k2, k3⟩ := h0
            rw [ImportDenotes] at k1 hden
            rw [hden] at k1
            injection k1 with k1
            rw [← List.append_cancel_left k1] at k2
            exact ⟨_, List.mem_cons_self .., ns, k2, by rw [k3]⟩
          · obtain ⟨i', k1, k2⟩ := ih hi
            exact ⟨i', by simp [k1], k2⟩
      obtain ⟨i', hi', ns, hq, hns⟩ := key h4.imports hi
      obtain ⟨ns', hns', e', he', hk⟩ := h.closed e he i' hi'
      rw [hns] at hns'
      injection hns' with hns'
      subst hns'
      obtain ⟨g1, g2, -⟩ := h.sound e' he'
      exact ⟨e', he', hd _ _ _ _ g1 (.step hp hpa hi hden) g2 hq hk⟩
  · rintro ⟨e, he, rfl⟩
    exact (h.sound e he).1

/-- **C40 (termination).** If the files reachable from the root are among finitely many ones, loading ends, even if imports
form cycles, within one step for each of these files and one more. -/
theorem C40_terminates {T : CharTable} {fs : FileSystem} {fuel : Nat} {path : FPath} {E : LoadEnv} {name : Str}
    (hE : loadEnv fs path = some (E, name)) (files : List (List Str)) (hf : ∀ p, ReachableFile T E [name] p → p ∈ files)
    (hfuel : files.length < fuel) : loadSchemas T fs fuel path ≠ .running := by
  intro hr
  cases hn : pathToNamespace T [name] with
  | none => rw [loadSchemas, hE] at hr; dsimp only at hr; rw [hn] at hr; cases hr
  | some ns =>
    have hs := loadSchemas_spec (fuel := fuel) hE hn
    rw [hr] at hs
    obtain ⟨keys, h1, h2, h3⟩ := hs
    have hsub : ∀ k ∈ keys, k ∈ files.filterMap (fun p => (pathToNamespace T p).map Namespace.key) := by
      intro k hk
      obtain ⟨p, n, k1, k2, k3⟩ := h3 k hk
      exact List.mem_filterMap.mpr ⟨p, hf p k1, by rw [k2, ← k3]; rfl⟩
    have := (List.Nodup.subperm h1 hsub).length_le
    have := List.length_filterMap_le (fun p => (pathToNamespace T p).map Namespace.key) files
    omega

/-- If loading ended, a larger bound on the number of steps makes no difference. -/
theorem loadLoop_fuel {T : CharTable} {E : LoadEnv} : ∀ (fuel more : Nat) (f : Frontier) (S : List (Namespace × LoadedFile)),
    loadLoop T E fuel f S ≠ .running → loadLoop T E (fuel + more) f S = loadLoop T E fuel f S
  | 0, _, _, _, h => absurd rfl h
  | fuel + 1, more, f, S, h => by
    rw [Nat.add_right_comm]
    rw [loadLoop] at h ⊢
    rw [loadLoop]
    obtain ⟨toLoad, visited, errors⟩ := f
    cases toLoad with
    | nil => rfl
    | cons e rest =>
      obtain ⟨ns, path⟩ := e
      dsimp only at h ⊢
      cases h1 : E.fs.read (E.base.join (.rel path)) with
      | none => rw [h1] at h; exact loadLoop_fuel fuel more _ _ h
      | some contents =>
        rw [h1] at h
        dsimp only at h ⊢
        cases h2 : tokenize T contents with
        | error es => rw [h2] at h; exact loadLoop_fuel fuel more _ _ h
        | ok toks =>
          rw [h2] at h
          dsimp only at h ⊢
          cases h3 : parse T toks with
          | panic => rfl
          | err es => rw [h3] at h; exact loadLoop_fuel fuel more _ _ h
          | ok schema =>
            rw [h3] at h
            dsimp only at h ⊢
            cases h4 : (FPath.rel path).parent with
            | none => rfl
            | some parent =>
              rw [h4] at h
              dsimp only at h ⊢
              cases h5 : loadImports T E path parent.parts schema.imports ⟨rest, visited, errors⟩ with
              | none => rfl
              | some r =>
                obtain ⟨imports, f'⟩ := r
                rw [h5] at h
                dsimp only at h ⊢
                cases h6 : insertLoaded ns (LoadedFile.mk { schema with imports := imports } path contents) S with
                | mk S' old =>
                  rw [h6] at h
                  cases old with
                  | none => exact loadLoop_fuel fuel more _ _ h
                  | some o => exact loadLoop_fuel fuel more _ _ h

theorem C40_fuel {T : CharTable} {fs : FileSystem} (fuel more : Nat) {path : FPath} (h : loadSchemas T fs fuel path ≠ .running) :
    loadSchemas T fs (fuel + more) path = loadSchemas T fs fuel path := by
  unfold loadSchemas at h ⊢
  repeat' split
  all_goals first
    | rfl
    | (refine loadLoop_fuel fuel more _ _ ?_
       simp_all)

/-- **C40 (failure).** If all reachable files can be loaded (and there are finitely many), loading succeeds. -/
theorem C40_succeeds {T : CharTable} {fs : FileSystem} {fuel : Nat} {path : FPath} {E : LoadEnv} {name : Str}
    (hE : loadEnv fs path = some (E, name)) (hn : ∃ ns, pathToNamespace T [name] = some ns)
    (files : List (List Str)) (hf : ∀ p, ReachableFile T E [name] p → p ∈ files) (hfuel : files.length < fuel)
    (hg : ∀ p, ReachableFile T E [name] p → LoadableFile T E p) : ∃ S, loadSchemas T fs fuel path = .ok S := by
  have ht := C40_terminates hE files hf hfuel
  obtain ⟨ns, hn⟩ := hn
  have hs := loadSchemas_spec (fuel := fuel) hE hn
  cases hr : loadSchemas T fs fuel path with
  | ok S => exact ⟨S, rfl⟩
  | running => exact absurd hr ht
  | err es => rw [hr] at hs; obtain ⟨-, p, h1, h2⟩ := hs; exact absurd (hg p h1) h2
  | panic => rw [hr] at hs; obtain ⟨p, h1, h2⟩ := hs; exact absurd (hg p h1) h2

/-- **C40 (failure, converse).** If loading succeeds, all the loaded files satisfy the condition of C40_succeeds. (With
C40_all_reachable these are all reachable files, if they have distinct namespaces.) -/
theorem C40_success_means {T : CharTable} {E : LoadEnv} {root : List Str} {S : List (Namespace × LoadedFile)}
    (h : LoadedSpec T E root S) : ∀ e ∈ S, e.2.path ≠ [] → LoadableFile T E e.2.path := by
  intro e he hne
  obtain ⟨-, -, s, h1, h2⟩ := h.sound e he
  refine ⟨hne, _, s, h1, ?_⟩
  have key : ∀ {is is' : List (Identifier × Import)}, Each (fun i i' => i'.1 = i.1 ∧ ∃ q ns, ImportDenotes E e.2.path i.2 q ∧
      pathToNamespace T q = some ns ∧ i'.2 = { i.2 with namespace_ := some ns }) is is' →
      ∀ i ∈ is, ∃ q ns, ImportDenotes E e.2.path i.2 q ∧ pathToNamespace T q = some ns := by
    intro is is' hE
    induction hE with
    | nil => simp
    | cons h0 _ ih =>
      intro i hi
      rcases List.mem_cons.mp hi with rfl | hi
      · obtain ⟨-, q, ns, k1, k2, -⟩ := h0
        exact ⟨q, ns, k1, k2⟩
      · exact ih i hi
  exact key h2.imports

/-- **C40 (what later stages assume).** The loaded schemas satisfy the assumptions of the properties of the validator and of
the generators (C28-C32, C39, C43, C47). -/
theorem C40_establishes_loaded {T : CharTable} {fs : FileSystem} {fuel : Nat} {path : FPath}
    {S : List (Namespace × LoadedFile)} (h : loadSchemas T fs fuel path = .ok S) :
    Schemas.Loaded (S.map (fun e => (e.1, e.2.schema))) := by
  obtain ⟨E, name, -, hl⟩ := C40_loaded h
  have hparsed : ∀ e ∈ S, ∃ toks s, parse T toks = .ok s ∧ ResolvedSchema T E e.2.path s e.2.schema := by
    intro e he
    obtain ⟨-, -, s, ⟨-, toks, -, h1⟩, h2⟩ := hl.sound e he
    exact ⟨toks, s, h1, h2⟩
  have hmap : (S.map (fun e => (e.1, e.2.schema))).map (fun e => e.1.key) = S.map (fun e => e.1.key) := by
    rw [List.map_map]; rfl
  constructor
  · rw [hmap]; exact keySorted_nodup hl.sorted
  · intro e' he'
    obtain ⟨e, he, rfl⟩ := List.mem_map.mp he'
    obtain ⟨toks, s, h1, h2⟩ := hparsed e he
    have names : ∀ {is is' : List (Identifier × Import)}, Each (fun i i' => i'.1 = i.1 ∧ ∃ q ns, ImportDenotes E e.2.path i.2 q ∧
        pathToNamespace T q = some ns ∧ i'.2 = { i.2 with namespace_ := some ns }) is is' →
        is'.map (fun i => i.1.snakeCase) = is.map (fun i => i.1.snakeCase) := by
      intro is is' hE
      induction hE with
      | nil => rfl
      | cons h0 _ ih => rw [List.map_cons, List.map_cons, ih, h0.1]
    dsimp only
    rw [names h2.imports]
    cases parse_iff.mp h1 with
    | @mk c is ds comment written imports decls hcs hw hnd hperm hsorted hds =>
      rw [List.Nodup, List.pairwise_map]
      refine hsorted.imp ?_
      intro a b hab he
      rw [he, strBefore_irrefl] at hab
      cases hab
  · intro e' he' i hi
    obtain ⟨e, he, rfl⟩ := List.mem_map.mp he'
    obtain ⟨ns, hns, -⟩ := hl.closed e he i hi
    rw [hns]; simp
  · intro e' he' d hd
    obtain ⟨e, he, rfl⟩ := List.mem_map.mp he'
    obtain ⟨toks, s, h1, h2⟩ := hparsed e he
    dsimp only at hd
    rw [h2.declarations] at hd
    cases parse_iff.mp h1 with
    | @mk c is ds comment written imports decls hcs hw hnd hperm hsorted hds =>
      obtain ⟨us, g1, -⟩ := many_mem hds d hd
      cases g1 with
      | mk _ _ _ _ _ hdel _ =>
        cases hdel with
        | absent => simp
        | present _ _ hn hp _ => exact hp.nodup_iff.mpr hn

/-- **C40 (imports denote files).** In a file system in which canonical paths are their own canonical paths, and if the
file given by the user is not a link to another directory: the text which is loaded for the target of an import is the text of
the file to which the path of the import leads. -/
theorem C40_denoted_file {T : CharTable} {E : LoadEnv} (hs : E.SameBase) (hc : E.fs.CanonicalStable) {p q : List Str} {i : Import}
    (hi : ImportDenotes E p i q) {c : Str} {s : Schema} (hq : Parses T E q c s) :
    E.fs.read (E.base.join ((FPath.rel p.dropLast).join (FPath.ofStr i.path))) = some c := by
  have h1 := hc _ _ hi
  have h2 : E.fs.canonicalize (E.base.join (.rel q)) = some (E.canonicalBase ++ q) := by
    rw [hs _ rfl]
    simpa [FPath.join, FPath.rel] using h1
  have h3 := hq.1
  rw [FileSystem.read, h2] at h3
  rw [FileSystem.read, hi]
  exact h3

/-! ## Files with equal namespaces (C41) -/

/-- **C41 is false in general**: no run ever reports a conflict between files. -/
theorem C41_never_reported {T : CharTable} {fs : FileSystem} {fuel : Nat} {path : FPath} {es : List LoadErr}
    (h : loadSchemas T fs fuel path = .err es) (p q : List Str) : LoadErr.conflict p q ∉ es := by
  cases hE : loadEnv fs path with
  | none =>
    rw [loadSchemas, hE] at h
    injection h with h
    subst h
    simp
  | some r =>
    obtain ⟨E, name⟩ := r
    cases hn : pathToNamespace T [name] with
    | none => rw [loadSchemas, hE] at h; dsimp only at h; rw [hn] at h; cases h
    | some ns =>
      have hs := loadSchemas_spec (fuel := fuel) hE hn
      rw [h] at hs
      exact hs.1 p q

/-! ## Concrete cases -/

/-- Removal of `..`. -/
def normalizeParts (parts : List Str) : List Str :=
  parts.foldl (fun acc c => if c = ['.', '.'] then acc.dropLast else acc ++ [c]) []

/-- A file system with these files and these links to files. Relative paths begin at the root. -/
def simpleFs (files : List (List Str × Str)) (links : List (List Str × List Str)) : FileSystem where
  canonicalize p :=
    let q := normalizeParts p.parts
    let q := (links.lookup q).getD q
    if (files.lookup q).isSome then some q else none
  contents q := files.lookup q

/-- What a run loads: paths of files, with the names and namespaces of their imports. -/
def loadedPaths : LoadResult → Option (List (List Str × List (Str × Option (List Str))))
  | .ok S => some (S.map (fun e => (e.2.path, e.2.schema.imports.map (fun i => (i.1.snakeCase, i.2.namespace_.map Namespace.key)))))
  | _ => none

def strs (l : List String) : List Str := l.map String.toList

/-- A cycle of imports through two directories. -/
def cyclicFs : FileSystem := simpleFs
  [(strs ["p", "a.t"], "import 'sub/b.t'\n".toList), (strs ["p", "sub", "b.t"], "import '../a.t'\nimport 'c.t' as third\n".toList),
    (strs ["p", "sub", "c.t"], "struct Foo {\n}\n".toList)] []

set_option synthInstance.maxSize 2000 in
example : loadedPaths (loadSchemas asciiTable cyclicFs 4 (FPath.ofStr "p/a.t".toList)) =
    some [(strs ["a.t"], [("b".toList, some (strs ["sub", "b"]))]),
      (strs ["sub", "b.t"], [("a".toList, some (strs ["a"])), ("third".toList, some (strs ["sub", "c"]))]),
      (strs ["sub", "c.t"], [])] := by decide +kernel

/-- The conditions of C40_denoted_file hold of it. -/
example : ∃ E name, loadEnv cyclicFs (FPath.ofStr "p/a.t".toList) = some (E, name) ∧ E.SameBase ∧ E.fs.CanonicalStable := by
  refine ⟨⟨cyclicFs, FPath.ofStr "p".toList, strs ["p"]⟩, "a.t".toList, rfl, ?_, ?_⟩
  · intro q hq
    show cyclicFs.canonicalize (FPath.join _ q) = cyclicFs.canonicalize (FPath.join _ q)
    unfold FPath.join
    rw [hq]
    rfl
  · intro p c h
    have : c ∈ [strs ["p", "a.t"], strs ["p", "sub", "b.t"], strs ["p", "sub", "c.t"]] := by
      by_cases h1 : c = strs ["p", "a.t"]
      · simp [h1]
      by_cases h2 : c = strs ["p", "sub", "b.t"]
      · simp [h2]
      by_cases h3 : c = strs ["p", "sub", "c.t"]
      · simp [h3]
      exfalso
      have hc : (cyclicFs.contents c).isSome = true := by
        change (if _ then some _ else none) = some c at h
        split at h
        · injection h with h; subst h; assumption
        · cases h
      simp only [cyclicFs, simpleFs, List.lookup_cons, beq_eq_false_iff_ne.mpr h1, beq_eq_false_iff_ne.mpr h2,
        beq_eq_false_iff_ne.mpr h3, List.lookup_nil] at hc
      cases hc
    simp only [List.mem_cons, List.not_mem_nil, or_false] at this
    rcases this with rfl | rfl | rfl <;> decide +kernel

set_option synthInstance.maxSize 2000 in
/-- **C41, witness**: the file imports `b.t` and `b.u`; both exist and parse. The run succeeds, but `b.u` is not loaded, and the
import of `b.u` refers to the namespace under which `b.t` is loaded. -/
theorem C41_dropped_witness :
    loadedPaths (loadSchemas asciiTable (simpleFs
        [(strs ["a.t"], "import 'b.t' as x\nimport 'b.u' as y\n".toList), (strs ["b.t"], "struct Foo {\n}\n".toList),
          (strs ["b.u"], "struct Foo {\n    z: String = 0\n}\n".toList)] []) 10 (FPath.ofStr "a.t".toList)) =
      some [(strs ["a.t"], [("x".toList, some (strs ["b"])), ("y".toList, some (strs ["b"]))]), (strs ["b.t"], [])] := by
  decide +kernel

/-- If the file given by the user is a link to another directory, the wrong file may be loaded (the condition `SameBase`
of C40_denoted_file is necessary): the import leads to `/q/x.t`, but `/p/x.t` is loaded. -/
theorem C40_link_witness :
    let fs := simpleFs [(strs ["q", "root.t"], "import '../q/x.t'\n".toList), (strs ["q", "x.t"], "struct Foo {\n}\n".toList),
      (strs ["p", "x.t"], "struct Bar {\n}\n".toList)] [(strs ["p", "link.t"], strs ["q", "root.t"])]
    fs.canonicalize (FPath.ofStr "p/../q/x.t".toList) = some (strs ["q", "x.t"]) ∧
    (match loadSchemas asciiTable fs 10 (FPath.ofStr "p/link.t".toList) with
      | .ok S => S.map (fun e => (e.2.path, e.2.contents))
      | _ => []) = [(strs ["link.t"], "import '../q/x.t'\n".toList), (strs ["x.t"], "struct Bar {\n}\n".toList)] := by
  decide +kernel

/-- The loader panics on files with names like `...t`. -/
theorem C40_panic_witness :
    (match loadSchemas asciiTable (simpleFs [(strs ["a.t"], "import '...t' as x\n".toList), (strs ["...t"], [])] []) 10
        (FPath.ofStr "a.t".toList) with
      | .panic => true
      | _ => false) = true := by
  decide +kernel

end Typical
