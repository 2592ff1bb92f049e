import Verif.Front.LoaderLemmas

/-!
# Lemmas about the errors of the loader
-/

namespace Typical

/-- What is wrong with an import. -/
def ImportProblem (E : LoadEnv) (path : List Str) (imp : Import) (e : LoadErr) : Prop :=
  (E.fs.canonicalize (E.base.join ((FPath.rel path.dropLast).join (FPath.ofStr imp.path))) = none ∧ e = .unresolved path imp) ∨
  (∃ target, E.fs.canonicalize (E.base.join ((FPath.rel path.dropLast).join (FPath.ofStr imp.path))) = some target ∧
    ¬ E.canonicalBase <+: target ∧ e = .outside path imp target)

/-- What the loop over the imports does to the frontier. -/
structure ImportsExact (T : CharTable) (E : LoadEnv) (path : List Str) (is : List (Identifier × Import)) (f f' : Frontier) : Prop where
  errors : ∀ e, e ∈ f'.errors ↔ e ∈ f.errors ∨ ∃ i ∈ is, ImportProblem E path i.2 e
  visited : ∀ k, k ∈ f'.visited ↔ k ∈ f.visited ∨ ∃ i ∈ is, ∃ q ns, ImportDenotes E path i.2 q ∧ pathToNamespace T q = some ns ∧ ns.key = k
  resolved : ∀ i ∈ is, ∀ q, ImportDenotes E path i.2 q → ∃ ns, pathToNamespace T q = some ns
  toLoad : ∃ new, f'.toLoad = new ++ f.toLoad ∧ (∀ k, k ∈ f'.visited ↔ k ∈ f.visited ∨ ∃ e ∈ new, e.1.key = k) ∧
    ∀ e ∈ new, pathToNamespace T e.2 = some e.1 ∧ ∃ i ∈ is, ImportDenotes E path i.2 e.2

theorem importDenotes_unique {E : LoadEnv} {path : List Str} {imp : Import} {q q' : List Str} (h : ImportDenotes E path imp q)
    (h' : ImportDenotes E path imp q') : q = q' := by
  rw [ImportDenotes] at h h'
  rw [h] at h'
  injection h' with h'
  exact List.append_cancel_left h'

theorem loadImport_exact {T : CharTable} {E : LoadEnv} {path : List Str} (n : Identifier) (i i' : Import) (f f' : Frontier)
    (h : loadImport T E path path.dropLast i f = some (i', f')) : ImportsExact T E path [(n, i)] f f' := by
  unfold loadImport at h
  cases hc : E.fs.canonicalize (E.base.join ((FPath.rel path.dropLast).join (FPath.ofStr i.path))) with
  | none =>
    rw [hc] at h
    injection h with h; injection h with h1 h2
    subst h1; subst h2
    have hno : ∀ q, ¬ ImportDenotes E path i q := by
      intro q hq; rw [ImportDenotes, hc] at hq; cases hq
    refine ⟨?_, ?_, ?_, ⟨[], rfl, by simp, by simp⟩⟩
    · intro e
      simp only [List.mem_append, List.mem_singleton, exists_eq_left]
      refine or_congr Iff.rfl ?_
      constructor
      · rintro rfl; exact .inl ⟨hc, rfl⟩
      · rintro (⟨-, rfl⟩ | ⟨t, ht, -⟩)
        · rfl
        · rw [hc] at ht; cases ht
    · intro k
      constructor
      · exact .inl
      · rintro (h | ⟨j, hj, q, ns, hq, -⟩)
        · exact h
        · rw [List.mem_singleton] at hj
          subst hj; exact absurd hq (hno q)
    · intro j hj q hq
      rw [List.mem_singleton] at hj
      subst hj; exact absurd hq (hno q)
  | some canonical =>
    rw [hc] at h
    dsimp only at h
    cases hs : stripPrefix E.canonicalBase canonical with
    | none =>
      rw [hs] at h
      injection h with h; injection h with h1 h2
      subst h1; subst h2
      have hno : ∀ q, ¬ ImportDenotes E path i q := by
        intro q hq; rw [ImportDenotes, hc] at hq
        injection hq with hq
        rw [stripPrefix_iff.mpr hq] at hs; cases hs
      have hpre : ¬ E.canonicalBase <+: canonical := by
        rintro ⟨q, hq⟩
        exact hno q (by rw [ImportDenotes, hc, hq])
      refine ⟨?_, ?_, ?_, ⟨[], rfl, by simp, by simp⟩⟩
      · intro e
        simp only [List.mem_append, List.mem_singleton, exists_eq_left]
        refine or_congr Iff.rfl ?_
        constructor
        · rintro rfl; exact .inr ⟨canonical, hc, hpre, rfl⟩
        · rintro (⟨h, -⟩ | ⟨t, ht, -, rfl⟩)
          · rw [hc] at h; cases h
          · rw [hc] at ht; cases ht; rfl
      · intro k
        constructor
        · exact .inl
        · rintro (h | ⟨j, hj, q, ns, hq, -⟩)
          · exact h
          · rw [List.mem_singleton] at hj
            subst hj; exact absurd hq (hno q)
      · intro j hj q hq
        rw [List.mem_singleton] at hj
        subst hj; exact absurd hq (hno q)
    | some based =>
      rw [hs] at h
      dsimp only at h
      have hd : ImportDenotes E path i based := by rw [ImportDenotes, hc, stripPrefix_iff.mp hs]
      have hpro : ∀ e, ¬ ImportProblem E path i e := by
        rintro e (⟨h, -⟩ | ⟨t, ht, hp, -⟩)
        · rw [hc] at h; cases h
        · rw [hc] at ht; cases ht; exact hp ⟨based, (stripPrefix_iff.mp hs).symm⟩
      cases hn : pathToNamespace T based with
      | none => rw [hn] at h; cases h
      | some ns =>
        rw [hn] at h
        dsimp only at h
        injection h with h; injection h with h1 h2
        have herr : f'.errors = f.errors := by rw [← h2]; split <;> rfl
        have hvis : ∀ k, k ∈ f'.visited ↔ k ∈ f.visited ∨ k = ns.key := by
          intro k
          rw [← h2]
          split
          · rename_i hv
            have hv : ns.key ∈ f.visited := by simpa using hv
            constructor
            · exact .inl
            · rintro (h | rfl) <;> assumption
          · simp [or_comm]
        have hunique : ∀ q, ImportDenotes E path i q → q = based := fun q hq => importDenotes_unique hq hd
        refine ⟨?_, ?_, ?_, ?_⟩
        · intro e
          rw [herr]
          simp [hpro]
        · intro k
          rw [hvis]
          refine or_congr Iff.rfl ?_
          constructor
          · rintro rfl; exact ⟨(n, i), by simp, based, ns, hd, hn, rfl⟩
          · rintro ⟨j, hj, q, m, hq, hm, rfl⟩
            rw [List.mem_singleton] at hj
            subst hj
            rw [hunique q hq, hn] at hm
            cases hm; rfl
        · intro j hj q hq
          rw [List.mem_singleton] at hj
          subst hj
          exact ⟨ns, by rw [hunique q hq, hn]⟩
        · by_cases hv : f.visited.contains ns.key = true
          · rw [if_pos hv] at h2
            subst h2
            exact ⟨[], rfl, by simp, by simp⟩
          · rw [if_neg hv] at h2
            subst h2
            refine ⟨[(ns, based)], rfl, ?_, ?_⟩
            · intro k; simp [or_comm, eq_comm]
            · intro e he
              rw [List.mem_singleton] at he
              subst he
              exact ⟨hn, (n, i), by simp, hd⟩

theorem loadImports_exact {T : CharTable} {E : LoadEnv} {path : List Str} :
    ∀ (is : List (Identifier × Import)) (f f' : Frontier) (is' : List (Identifier × Import)),
      loadImports T E path path.dropLast is f = some (is', f') → ImportsExact T E path is f f'
  | [], f, f', is', h => by
    rw [loadImports] at h
    injection h with h; injection h with h1 h2
    subst h2
    exact ⟨by simp, by simp, by simp, ⟨[], rfl, by simp, by simp⟩⟩
  | (n, i) :: is, f, f', is', h => by
    rw [loadImports] at h
    cases hb : loadImport T E path path.dropLast i f with
    | none => rw [hb] at h; cases h
    | some r =>
      obtain ⟨i', f1⟩ := r
      rw [hb] at h
      dsimp only at h
      cases hl : loadImports T E path path.dropLast is f1 with
      | none => rw [hl] at h; cases h
      | some r =>
        obtain ⟨is1, f2⟩ := r
        rw [hl] at h
        injection h with h; injection h with h1 h2
        subst h2
        have a := loadImport_exact n _ _ _ _ hb
        have b := loadImports_exact is _ _ _ hl
        obtain ⟨new1, a1, a2, a3⟩ := a.toLoad
        obtain ⟨new2, b1, b2, b3⟩ := b.toLoad
        refine ⟨?_, ?_, ?_, ⟨new2 ++ new1, by rw [b1, a1]; simp, ?_, ?_⟩⟩
        · intro e
          rw [b.errors, a.errors]
          simp [or_assoc]
        · intro k
          rw [b.visited, a.visited]
          rw [or_assoc]
          refine or_congr Iff.rfl ?_
          constructor
          · rintro (⟨j, hj, hk⟩ | ⟨j, hj, hk⟩)
            · rw [List.mem_singleton] at hj
              exact ⟨j, by simp [hj], hk⟩
            · exact ⟨j, by simp [hj], hk⟩
          · rintro ⟨j, hj, hk⟩
            rcases List.mem_cons.mp hj with rfl | hj
            · exact .inl ⟨_, by simp, hk⟩
            · exact .inr ⟨j, hj, hk⟩
        · intro j hj
          rcases List.mem_cons.mp hj with rfl | hj
          · exact a.resolved _ (by simp)
          · exact b.resolved j hj
        · intro k
          rw [b2, a2]
          simp only [List.mem_append, or_assoc]
          refine or_congr Iff.rfl ?_
          constructor
          · rintro (⟨e, he, hk⟩ | ⟨e, he, hk⟩)
            · exact ⟨e, .inr he, hk⟩
            · exact ⟨e, .inl he, hk⟩
          · rintro ⟨e, he | he, hk⟩
            · exact .inr ⟨e, he, hk⟩
            · exact .inl ⟨e, he, hk⟩
        · intro e he
          rcases List.mem_append.mp he with he | he
          · obtain ⟨g1, j, g2, g3⟩ := b3 e he
            exact ⟨g1, j, by simp [g2], g3⟩
          · obtain ⟨g1, j, g2, g3⟩ := a3 e he
            rw [List.mem_singleton] at g2
            subst g2
            exact ⟨g1, _, by simp, g3⟩

/-- An error which is not about conflicting namespaces. -/
def NotConflict (e : LoadErr) : Prop := ∀ p q, e ≠ .conflict p q

/-- The invariant about errors. `done`: the files which have been processed. -/
structure ErrInv (T : CharTable) (E : LoadEnv) (root : List Str) (f : Frontier) (done : List (List Str)) : Prop where
  toLoad : ∀ e ∈ f.toLoad, ReachableFile T E root e.2 ∧ pathToNamespace T e.2 = some e.1
  processed : ∀ p ∈ done, ReachableFile T E root p ∧ ∃ ns, pathToNamespace T p = some ns
  errors : ∀ e, NotConflict e → (e ∈ f.errors ↔ ∃ p ∈ done, FileProblem T E p e)
  closed : ∀ p ∈ done, ∀ c s, Parses T E p c s → ∀ i ∈ s.imports, ∀ q, ImportDenotes E p i.2 q →
    ∃ ns, pathToNamespace T q = some ns ∧ ns.key ∈ f.visited
  visited : ∀ k ∈ f.visited, (∃ e ∈ f.toLoad, e.1.key = k) ∨ ∃ p ∈ done, ∃ ns, pathToNamespace T p = some ns ∧ ns.key = k
  root : (∃ e ∈ f.toLoad, e.2 = root) ∨ root ∈ done

/-- A step for a file which is no schema. -/
theorem errInv_bad {T : CharTable} {E : LoadEnv} {root : List Str} {ns : Namespace} {path : List Str}
    {rest : List (Namespace × List Str)} {visited : List (List Str)} {errors : List LoadErr}
    {done : List (List Str)} {e : LoadErr} (h : ErrInv T E root ⟨(ns, path) :: rest, visited, errors⟩ done)
    (he : ∀ e', FileProblem T E path e' ↔ e' = e) (hp : ∀ c s, ¬ Parses T E path c s) :
    ErrInv T E root ⟨rest, visited, errors ++ [e]⟩ (path :: done) := by
  have hr := h.toLoad (ns, path) (by simp)
  refine ⟨fun e he => h.toLoad e (by simp [he]), ?_, ?_, ?_, ?_, ?_⟩
  · intro p hp
    rcases List.mem_cons.mp hp with rfl | hp
    · exact ⟨hr.1, _, hr.2⟩
    · exact h.processed p hp
  · intro e' hn
    have := h.errors e' hn
    dsimp only at this
    simp only [List.mem_append, this, List.mem_cons, exists_eq_or_imp, he, or_comm, List.not_mem_nil, or_false, false_or]
  · intro p hp' c s hpa
    rcases List.mem_cons.mp hp' with rfl | hp'
    · exact absurd hpa (hp c s)
    · exact h.closed p hp' c s hpa
  · intro k hk
    rcases h.visited k hk with ⟨e, he, hk⟩ | ⟨p, hp, hk⟩
    · rcases List.mem_cons.mp he with rfl | he
      · exact .inr ⟨path, by simp, ns, hr.2, hk⟩
      · exact .inl ⟨e, he, hk⟩
    · exact .inr ⟨p, by simp [hp], hk⟩
  · rcases h.root with ⟨e, he, h1⟩ | h1
    · rcases List.mem_cons.mp he with rfl | he
      · exact .inr (by rw [← h1]; simp)
      · exact .inl ⟨e, he, h1⟩
    · exact .inr (by simp [h1])

/-- A step for a schema. -/
theorem errInv_good {T : CharTable} {E : LoadEnv} {root : List Str} {ns : Namespace} {path : List Str}
    {rest : List (Namespace × List Str)} {visited : List (List Str)} {errors : List LoadErr}
    {done : List (List Str)} {c : Str} {s : Schema} {f' : Frontier} (h : ErrInv T E root ⟨(ns, path) :: rest, visited, errors⟩ done)
    (hp : Parses T E path c s) (hx : ImportsExact T E path s.imports ⟨rest, visited, errors⟩ f') :
    ErrInv T E root f' (path :: done) := by
  have hr := h.toLoad (ns, path) (by simp)
  obtain ⟨new, x1, x2, x3⟩ := hx.toLoad
  have hprob : ∀ e, FileProblem T E path e ↔ ∃ i ∈ s.imports, ImportProblem E path i.2 e := by
    intro e
    obtain ⟨hp1, toks, hp2, hp3⟩ := id hp
    constructor
    · intro he
      cases he with
      | unreadable h => rw [h] at hp1; cases hp1
      | lexical c' es h1 h2 =>
        rw [h1] at hp1; cases hp1
        rw [h2] at hp2; cases hp2
      | syntactic c' toks' es h1 h2 h3 =>
        rw [h1] at hp1; cases hp1
        rw [h2] at hp2; cases hp2
        rw [h3] at hp3; cases hp3
      | unresolved c' s' i h1 h2 h3 =>
        obtain ⟨-, rfl⟩ := parses_unique hp h1
        exact ⟨i, h2, .inl ⟨h3, rfl⟩⟩
      | outside c' s' i t h1 h2 h3 h4 =>
        obtain ⟨-, rfl⟩ := parses_unique hp h1
        exact ⟨i, h2, .inr ⟨t, h3, h4, rfl⟩⟩
    · rintro ⟨i, hi, ⟨h1, rfl⟩ | ⟨t, h1, h2, rfl⟩⟩
      · exact .unresolved c s i hp hi h1
      · exact .outside c s i t hp hi h1 h2
  refine ⟨?_, ?_, ?_, ?_, ?_, ?_⟩
  · intro e he
    rw [x1] at he
    rcases List.mem_append.mp he with he | he
    · obtain ⟨g1, i, g2, g3⟩ := x3 e he
      exact ⟨.step hr.1 hp g2 g3, g1⟩
    · exact h.toLoad e (List.mem_cons_of_mem _ he)
  · intro p hp
    rcases List.mem_cons.mp hp with rfl | hp
    · exact ⟨hr.1, _, hr.2⟩
    · exact h.processed p hp
  · intro e hn
    rw [hx.errors]
    have := h.errors e hn
    dsimp only at this
    simp only [this, List.mem_cons, exists_eq_or_imp, hprob, or_comm]
  · intro p hp' c' s' hpa i hi q hq
    rcases List.mem_cons.mp hp' with rfl | hp'
    · obtain ⟨-, rfl⟩ := parses_unique hp hpa
      obtain ⟨m, hm⟩ := hx.resolved i hi q hq
      exact ⟨m, hm, (hx.visited _).mpr (.inr ⟨i, hi, q, m, hq, hm, rfl⟩)⟩
    · obtain ⟨m, hm, hv⟩ := h.closed p hp' c' s' hpa i hi q hq
      exact ⟨m, hm, (hx.visited _).mpr (.inl hv)⟩
  · intro k hk
    rcases (x2 k).mp hk with hk | ⟨e, he, hk⟩
    · rcases h.visited k hk with ⟨e, he, hk⟩ | ⟨p, hp, hk⟩
      · rcases List.mem_cons.mp he with rfl | he
        · exact .inr ⟨path, by simp, ns, hr.2, hk⟩
        · exact .inl ⟨e, by rw [x1]; exact List.mem_append_right _ he, hk⟩
      · exact .inr ⟨p, by simp [hp], hk⟩
    · exact .inl ⟨e, by rw [x1]; exact List.mem_append_left _ he, hk⟩
  · rcases h.root with ⟨e, he, h1⟩ | h1
    · rcases List.mem_cons.mp he with rfl | he
      · exact .inr (by rw [← h1]; simp)
      · exact .inl ⟨e, by rw [x1]; exact List.mem_append_right _ he, h1⟩
    · exact .inr (by simp [h1])

theorem errInv_conflict {T : CharTable} {E : LoadEnv} {root : List Str} {f : Frontier} {done : List (List Str)} {p q : List Str}
    (h : ErrInv T E root f done) : ErrInv T E root { f with errors := f.errors ++ [.conflict p q] } done := by
  refine ⟨h.toLoad, h.processed, ?_, h.closed, h.visited, h.root⟩
  intro e hn
  rw [← h.errors e hn, List.mem_append, List.mem_singleton]
  constructor
  · rintro (h | h)
    · exact h
    · exact absurd h (hn p q)
  · exact .inl

theorem loadLoop_errors {T : CharTable} {E : LoadEnv} {root : List Str} : ∀ (fuel : Nat) (f : Frontier)
    (S : List (Namespace × LoadedFile)) (done : List (List Str)), ErrInv T E root f done →
    ∀ es, loadLoop T E fuel f S = .err es → ∃ done v, ErrInv T E root ⟨[], v, es⟩ done
  | 0, _, _, _, _, _, he => by cases he
  | fuel + 1, ⟨toLoad, visited, errors⟩, S, done, h, es, he => by
    rw [loadLoop] at he
    cases toLoad with
    | nil =>
      dsimp only at he
      split at he
      · cases he
      · injection he with he
        subst he
        exact ⟨done, visited, h⟩
    | cons x rest =>
      obtain ⟨ns, path⟩ := x
      dsimp only at he
      cases h1 : E.fs.read (E.base.join (.rel path)) with
      | none =>
        rw [h1] at he
        refine loadLoop_errors fuel _ _ _ (errInv_bad h (e := .unreadable path) ?_ ?_) _ he
        · intro e
          constructor
          · intro hp
            cases hp with
            | unreadable => rfl
            | lexical c es k => rw [h1] at k; cases k
            | syntactic c es k k' => rw [h1] at k'; cases k'
            | unresolved c s i k => rw [k.1] at h1; cases h1
            | outside c s i t k => rw [k.1] at h1; cases h1
          · rintro rfl; exact .unreadable h1
        · intro c s k; rw [k.1] at h1; cases h1
      | some contents =>
        rw [h1] at he
        dsimp only at he
        cases h2 : tokenize T contents with
        | error ls =>
          rw [h2] at he
          have hp : ∀ c s, ¬ Parses T E path c s := by
            rintro c s ⟨k, toks, k', -⟩
            rw [h1] at k; cases k
            rw [h2] at k'; cases k'
          refine loadLoop_errors fuel _ _ _ (errInv_bad h (e := .lexical path ls) ?_ hp) _ he
          intro e
          constructor
          · intro he
            cases he with
            | unreadable k => rw [h1] at k; cases k
            | lexical c es k k' => rw [h1] at k; cases k; rw [h2] at k'; cases k'; rfl
            | syntactic c toks es k k' => rw [h1] at k; cases k; rw [h2] at k'; cases k'
            | unresolved c s i k => exact absurd k (hp c s)
            | outside c s i t k => exact absurd k (hp c s)
          · rintro rfl; exact .lexical contents ls h1 h2
        | ok toks =>
          rw [h2] at he
          dsimp only at he
          cases h3 : parse T toks with
          | panic => rw [h3] at he; cases he
          | err ps =>
            rw [h3] at he
            have hp : ∀ c s, ¬ Parses T E path c s := by
              rintro c s ⟨k, toks, k', k''⟩
              rw [h1] at k; cases k
              rw [h2] at k'; cases k'
              rw [h3] at k''; cases k''
            refine loadLoop_errors fuel _ _ _ (errInv_bad h (e := .syntactic path ps) ?_ hp) _ he
            intro e
            constructor
            · intro he
              cases he with
              | unreadable k => rw [h1] at k; cases k
              | lexical c es k k' => rw [h1] at k; cases k; rw [h2] at k'; cases k'
              | syntactic c toks es k k' k'' =>
                rw [h1] at k; cases k; rw [h2] at k'; cases k'; rw [h3] at k''; cases k''; rfl
              | unresolved c s i k => exact absurd k (hp c s)
              | outside c s i t k => exact absurd k (hp c s)
            · rintro rfl; exact .syntactic contents toks ps h1 h2 h3
          | ok schema =>
            rw [h3] at he
            dsimp only at he
            cases h4 : (FPath.rel path).parent with
            | none => rw [h4] at he; cases he
            | some parent =>
              rw [h4] at he
              dsimp only at he
              have hpar : parent.parts = path.dropLast := by
                unfold FPath.parent FPath.rel at h4
                split at h4
                · cases h4
                · injection h4 with h4; subst h4; rfl
              rw [hpar] at he
              cases h5 : loadImports T E path path.dropLast schema.imports ⟨rest, visited, errors⟩ with
              | none => rw [h5] at he; cases he
              | some r =>
                obtain ⟨imports, f'⟩ := r
                rw [h5] at he
                dsimp only at he
                have inv := errInv_good h ⟨h1, toks, h2, h3⟩ (loadImports_exact _ _ _ _ h5)
                cases h6 : insertLoaded ns (LoadedFile.mk { schema with imports := imports } path contents) S with
                | mk S' old =>
                  rw [h6] at he
                  cases old with
                  | none => exact loadLoop_errors fuel _ _ _ inv _ he
                  | some o => exact loadLoop_errors fuel _ _ _ (errInv_conflict inv) _ he

/-- All reachable files have been processed at the end, if namespaces are distinct. -/
theorem errInv_all {T : CharTable} {E : LoadEnv} {root : List Str} {v : List (List Str)} {es : List LoadErr} {done : List (List Str)}
    (h : ErrInv T E root ⟨[], v, es⟩ done)
    (hd : ∀ p q n m, ReachableFile T E root p → ReachableFile T E root q → pathToNamespace T p = some n →
      pathToNamespace T q = some m → n.key = m.key → p = q) : ∀ p, ReachableFile T E root p → p ∈ done := by
  intro p hp
  induction hp with
  | root =>
    rcases h.root with ⟨e, he, -⟩ | h
    · cases he
    · exact h
  | @step p c s i q hp hpa hi hden ih =>
    obtain ⟨ns, h1, h2⟩ := h.closed p ih c s hpa i hi q hden
    rcases h.visited _ h2 with ⟨e, he, -⟩ | ⟨p', hp', m, h3, h4⟩
    · cases he
    · have := hd p' q m ns (h.processed p' hp').1 (.step hp hpa hi hden) h3 h1 h4
      rw [← this]; exact hp'

end Typical
