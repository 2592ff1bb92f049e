import Verif.Front.ModuleLemmas

/-!
# Properties C39, C43, C47: modules of the generated code and references between them
-/

namespace Typical

/-! ### C39 -/

/-- **C39.** The relative path written for a reference to a type of the module `target`, in the module `current`, resolves to
`target`. -/
theorem C39_resolves (target current : Namespace) :
    rustResolve current.key (rustReference target current).1
      ((rustReference target current).2.map Identifier.snakeCase) = some target.key := by
  obtain ⟨h1, h2⟩ := commonComponents_spec target.components current.components
  unfold rustResolve rustReference relativizeNamespace Namespace.key
  simp only [List.length_map]
  rw [if_pos (Nat.sub_le _ _), Nat.sub_sub_self h1, h2]

/-- **C39 (shortest).** No relative path with fewer `super::` resolves to `target`. -/
theorem C39_fewest_supers (target current : Namespace) (n : Nat) (rest : List Str)
    (h : rustResolve current.key n rest = some target.key) : (rustReference target current).1 ≤ n := by
  unfold rustResolve at h
  split at h
  · next hn =>
    rw [Option.some.injEq] at h
    simp only [Namespace.key, List.length_map] at hn h
    have := commonComponents_max target.components current.components _ (Nat.sub_le _ n) rest h
    show current.components.length - commonComponents target.components current.components ≤ n
    omega
  · cases h

/-- From `a.b.c` to `a.d.c`: `super::super::d::c`. -/
example : rustReference ⟨[⟨['A'], ['a']⟩, ⟨['d'], ['d']⟩, ⟨['c'], ['c']⟩]⟩ ⟨[⟨['a'], ['a']⟩, ⟨['b'], ['b']⟩, ⟨['c'], ['c']⟩]⟩ =
    (2, [⟨['d'], ['d']⟩, ⟨['c'], ['c']⟩]) := by decide +kernel

/-! ### C43 -/

/-- **C43.** The declarations written to the generated file, each with the module which contains it, are exactly those of the
loaded schemas, each once, in the module of its file's namespace. -/
theorem C43_each_declaration_once (S : Schemas) (hl : S.Loaded) :
    (((buildTree S).written []).map (fun e => (e.1.map Identifier.snakeCase, e.2))).Perm
      (S.flatMap (fun e => e.2.declarations.map (fun d => (e.1.key, d)))) :=
  (buildTree_spec S hl.namespaces).2.2

/-- **C43 (lookup).** The module of a namespace contains exactly the schema loaded under it; modules which do not belong
to a file are empty. -/
theorem C43_lookup (S : Schemas) (hl : S.Loaded) :
    (∀ ns s, (ns, s) ∈ S → ∃ m, (buildTree S).find ns.key = some m ∧ m.schema = s) ∧
    (∀ path m, (buildTree S).find path = some m →
      (∃ ns, (ns, m.schema) ∈ S ∧ ns.key = path) ∨ m.schema = ⟨[], [], []⟩) := by
  obtain ⟨h1, h2, -⟩ := buildTree_spec S hl.namespaces
  constructor
  · intro ns s hs
    have := h1 _ hs
    unfold Module.schemaAt at this
    rw [Option.map_eq_some_iff] at this
    exact this
  · intro path m hm
    rcases h2 path m.schema (by rw [Module.schemaAt, hm]; rfl) with ⟨e, he, hk, hs⟩ | h
    · refine .inl ⟨e.1, ?_, hk⟩
      rw [← hs]; exact he
    · exact .inr h

/-- Three files; the module of one contains those of the others. -/
def exampleTree : Schemas :=
  let d (n : Char) : Declaration := ⟨⟨0, 0⟩, [], .struct, ⟨[n], [n]⟩, [], []⟩
  [(⟨[⟨['a'], ['a']⟩]⟩, ⟨[], [], [d 'x', d 'y']⟩), (⟨[⟨['a'], ['a']⟩, ⟨['b'], ['b']⟩]⟩, ⟨[], [], [d 'x']⟩),
   (⟨[⟨['A'], ['a']⟩, ⟨['c'], ['c']⟩, ⟨['d'], ['d']⟩]⟩, ⟨[], [], [d 'z']⟩)]

theorem exampleTree_loaded : exampleTree.Loaded := by
  constructor <;> decide +kernel

example : ((buildTree exampleTree).written []).map (fun e => (e.1.map Identifier.snakeCase, e.2.name.snakeCase)) =
    [([['a'], ['b']], ['x']), ([['a'], ['c'], ['d']], ['z']), ([['a']], ['x']), ([['a']], ['y'])] := by
  decide +kernel

/-! ### C47 -/

theorem tsResolve_iff (exports : List Str → Str → Bool) (current : List Str) (name : Str) (rest : List Str)
    (h0 : exports [] name = true) :
    tsResolve exports current (name :: rest) = some (name :: rest) ↔
      ∀ n, 0 < n → n ≤ current.length → exports (current.take n) name = false := by
  unfold tsResolve
  rw [Option.map_eq_some_iff]
  constructor
  · rintro ⟨n, hf, he⟩ k hk1 hk2
    have hn : n = 0 := by
      have hmem := List.mem_of_find?_eq_some hf
      rw [List.mem_reverse, List.mem_range] at hmem
      have := congrArg List.length he
      simp only [List.length_append, List.length_take, List.length_cons] at this
      omega
    subst hn
    rw [List.find?_eq_some_iff_append] at hf
    obtain ⟨-, as, bs, hr, hall⟩ := hf
    have hkm : k ∈ (List.range (current.length + 1)).reverse := by
      rw [List.mem_reverse, List.mem_range]; omega
    rw [hr] at hkm
    rcases List.mem_append.mp hkm with hkm | hkm
    · have := hall k hkm
      simpa using this
    · rcases List.mem_cons.mp hkm with e | hkm
      · omega
      · exfalso
        have hp : (List.range (current.length + 1)).reverse.Pairwise (· > ·) := by
          rw [List.pairwise_reverse]
          exact List.pairwise_lt_range
        rw [hr, List.pairwise_append, List.pairwise_cons] at hp
        have := hp.2.1.1 k hkm
        omega
  · intro h
    refine ⟨0, ?_, rfl⟩
    rw [List.range_succ_eq_map, List.reverse_cons, List.find?_append]
    have : (List.map Nat.succ (List.range current.length)).reverse.find? (fun n => exports (current.take n) name) = none := by
      rw [List.find?_eq_none]
      intro n hn
      rw [List.mem_reverse, List.mem_map] at hn
      obtain ⟨k, hk, rfl⟩ := hn
      rw [List.mem_range] at hk
      rw [h (k + 1) (by omega) (by omega)]
      simp
    rw [this]
    simp [h0]

/-- **C47 (condition).** A reference in the generated TypeScript code, to a type of another (or the same) file, resolves to that type
if and only if none of the namespaces around the referring code, except the top level, exports the first name of the path. -/
theorem C47_resolves_iff_partial (S : Schemas) (hl : S.Loaded) (target current : Namespace) (s : Schema) (ht : (target, s) ∈ S)
    (first : Identifier) (others : List Identifier) (hc : target.components = first :: others) (name : Identifier) :
    tsResolve (buildTree S).exports current.key ((tsReference target name).map Identifier.snakeCase) =
        some (target.key ++ [name.snakeCase]) ↔
      ∀ n, 0 < n → n ≤ current.key.length → (buildTree S).exports (current.key.take n) first.snakeCase = false := by
  have hpath : (tsReference target name).map Identifier.snakeCase =
      first.snakeCase :: (others.map Identifier.snakeCase ++ [name.snakeCase]) := by
    simp [tsReference, hc]
  have hpath' : target.key ++ [name.snakeCase] =
      first.snakeCase :: (others.map Identifier.snakeCase ++ [name.snakeCase]) := by
    simp [Namespace.key, hc]
  rw [hpath, hpath']
  apply tsResolve_iff
  have h1 := (buildTree_spec S hl.namespaces).1 _ ht
  unfold Module.schemaAt at h1
  rw [Option.map_eq_some_iff] at h1
  obtain ⟨m, hm, -⟩ := h1
  rw [show target.key = first.snakeCase :: others.map Identifier.snakeCase by simp [Namespace.key, hc]] at hm
  unfold Module.exports
  cases hb : buildTree S with
  | mk children schema =>
    rw [hb, Module.find_cons] at hm
    cases hg : children.get first.snakeCase with
    | none => rw [hg] at hm; cases hm
    | some c => simp [Module.find, hg]

/-- The condition holds for `exampleTree`: referring to `a.b.x` in the module `a.c.d`. -/
example : tsResolve (buildTree exampleTree).exports [['a'], ['c'], ['d']] [['a'], ['b'], ['x']] =
    some [['a'], ['b'], ['x']] := by decide +kernel

/-- **C47 (witness).** For a file `x/x.t` the condition fails even for references to its own types: in the namespace `X.X`
the path `X.X.A` is looked up as `X.X.X.A`, which does not exist. -/
theorem C47_shadowing_witness :
    let ns : Namespace := ⟨[⟨['x'], ['x']⟩, ⟨['x'], ['x']⟩]⟩
    let S : Schemas := [(ns, ⟨[], [], [⟨⟨0, 0⟩, [], .struct, ⟨['a'], ['a']⟩, [], []⟩]⟩)]
    tsResolve (buildTree S).exports ns.key ((tsReference ns ⟨['a'], ['a']⟩).map Identifier.snakeCase) =
      some [['x'], ['x'], ['x'], ['a']] ∧
    (buildTree S).find [['x'], ['x'], ['x']] = none := by
  refine ⟨by decide +kernel, rfl⟩

/-- **C47 (witness).** The same happens for a file which declares a type with the name of the file: in `main.t` with a type `main`
the path `Main.B` is looked up in the namespace generated for the type `main`. -/
theorem C47_type_named_like_file_witness :
    let ns : Namespace := ⟨[⟨['m'], ['m']⟩]⟩
    let S : Schemas := [(ns, ⟨[], [], [⟨⟨0, 0⟩, [], .struct, ⟨['m'], ['m']⟩, [], []⟩,
      ⟨⟨0, 0⟩, [], .struct, ⟨['b'], ['b']⟩, [], []⟩]⟩)]
    tsResolve (buildTree S).exports ns.key ((tsReference ns ⟨['b'], ['b']⟩).map Identifier.snakeCase) =
      some [['m'], ['m'], ['b']] := by
  decide +kernel

end Typical
