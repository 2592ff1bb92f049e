import Verif.Spec.Loader
import Verif.Front.ParserComplete

namespace Typical

theorem stripPrefix_iff : ∀ {a b c : List Str}, stripPrefix a b = some c ↔ b = a ++ c
  | [], b, c => by simp [stripPrefix]
  | x :: a, [], c => by simp [stripPrefix]
  | x :: a, y :: b, c => by
    rw [stripPrefix]
    split
    · rename_i h; subst h; rw [stripPrefix_iff]; simp
    · rename_i h; simp; intro h'; exact absurd h'.symm h

theorem keyBefore_irrefl : ∀ s, keyBefore s s = false
  | [] => rfl
  | a :: s => by simp [keyBefore, strBefore_irrefl, keyBefore_irrefl s]

theorem keyBefore_trans : ∀ {a b c : List Str}, keyBefore a b = true → keyBefore b c = true → keyBefore a c = true
  | a, [], _, h, _ => by cases a <;> simp [keyBefore] at h
  | _, _ :: _, [], _, h => by simp [keyBefore] at h
  | [], _ :: _, _ :: _, _, _ => rfl
  | x :: a, y :: b, z :: c, h1, h2 => by
    simp only [keyBefore] at h1 h2 ⊢
    by_cases hxy : strBefore x y = true
    · by_cases hyz : strBefore y z = true
      · rw [if_pos (strBefore_trans hxy hyz)]
      · rw [if_neg hyz] at h2
        by_cases he : y = z
        · subst he; rw [if_pos hxy]
        · rw [if_neg he] at h2; cases h2
    · rw [if_neg hxy] at h1
      by_cases he : x = y
      · subst he
        rw [if_pos rfl] at h1
        by_cases hyz : strBefore x z = true
        · rw [if_pos hyz]
        · rw [if_neg hyz] at h2 ⊢
          by_cases he : x = z
          · rw [if_pos he] at h2 ⊢
            exact keyBefore_trans h1 h2
          · rw [if_neg he] at h2; cases h2
      · rw [if_neg he] at h1; cases h1

theorem keyBefore_total : ∀ {a b : List Str}, a ≠ b → keyBefore a b = false → keyBefore b a = true
  | [], [], h, _ => absurd rfl h
  | [], _ :: _, _, h => by simp [keyBefore] at h
  | _ :: _, [], _, _ => rfl
  | x :: a, y :: b, hne, h => by
    simp only [keyBefore] at h ⊢
    by_cases hxy : strBefore x y = true
    · rw [if_pos hxy] at h; cases h
    · rw [if_neg hxy] at h
      by_cases he : x = y
      · subst he
        rw [if_pos rfl] at h ⊢
        rw [if_neg hxy]
        exact keyBefore_total (fun he => hne (by rw [he])) h
      · have := strBefore_total he (by simpa using hxy)
        rw [if_pos this]

/-- In ascending order of namespaces. -/
def KeySorted {α : Type} (l : List (Namespace × α)) : Prop := l.Pairwise (fun a b => keyBefore a.1.key b.1.key = true)

theorem insertLoaded_spec {α : Type} (ns : Namespace) (v : α) : ∀ l : List (Namespace × α), KeySorted l →
    ns.key ∉ l.map (fun e => e.1.key) →
    (insertLoaded ns v l).2 = none ∧ KeySorted (insertLoaded ns v l).1 ∧ (insertLoaded ns v l).1.Perm ((ns, v) :: l)
  | [], _, _ => by simp [insertLoaded, KeySorted]
  | (n, w) :: l, h, hk => by
    obtain ⟨h1, h2⟩ := List.pairwise_cons.mp h
    simp only [List.map_cons, List.mem_cons, not_or] at hk
    rw [insertLoaded, if_neg hk.1]
    split
    · rename_i hlt
      refine ⟨rfl, ?_, .refl _⟩
      refine List.pairwise_cons.mpr ⟨?_, h⟩
      intro e he
      rcases List.mem_cons.mp he with he | he
      · subst he; exact hlt
      · exact keyBefore_trans hlt (h1 e he)
    · rename_i hge
      obtain ⟨i1, i2, i3⟩ := insertLoaded_spec ns v l h2 hk.2
      refine ⟨i1, ?_, ?_⟩
      · refine List.pairwise_cons.mpr ⟨?_, i2⟩
        intro e he
        rcases List.mem_cons.mp (i3.mem_iff.mp he) with he | he
        · subst he; exact keyBefore_total hk.1 (by simpa using hge)
        · exact h1 e he
      · exact (i3.cons _).trans (.swap _ _ _)

theorem keySorted_nodup {α : Type} {l : List (Namespace × α)} (h : KeySorted l) : (l.map (fun e => e.1.key)).Nodup := by
  rw [List.Nodup, List.pairwise_map]
  refine h.imp ?_
  intro a b hab he
  rw [he, keyBefore_irrefl] at hab
  cases hab

/-- What the loop over the imports does. -/
structure ImportsSpec (T : CharTable) (E : LoadEnv) (path : List Str) (is is' : List (Identifier × Import)) (f f' : Frontier) :
    Prop where
  frontier : ∃ new : List (Namespace × List Str), f'.toLoad = new ++ f.toLoad ∧
    f'.visited = new.map (fun e => e.1.key) ++ f.visited ∧
    ∀ e ∈ new, pathToNamespace T e.2 = some e.1 ∧ ∃ i ∈ is, ImportDenotes E path i.2 e.2
  nodup : f.visited.Nodup → f'.visited.Nodup
  errors : ∃ new, f'.errors = f.errors ++ new ∧
    (new = [] → Each (fun i i' => i'.1 = i.1 ∧ ∃ q ns, ImportDenotes E path i.2 q ∧ pathToNamespace T q = some ns ∧
      i'.2 = { i.2 with namespace_ := some ns } ∧ ns.key ∈ f'.visited) is is') ∧
    (new ≠ [] → ∃ i ∈ is, ∀ q, ¬ ImportDenotes E path i.2 q) ∧ ∀ p q, LoadErr.conflict p q ∉ new

theorem each_of_mono {α β : Type} {R S : α → β → Prop} {as : List α} {bs : List β} (h : Each R as bs)
    (hrs : ∀ a b, R a b → S a b) : Each S as bs := by
  induction h with
  | nil => exact .nil
  | cons h0 _ ih => exact .cons (hrs _ _ h0) ih

theorem loadImports_spec {T : CharTable} {E : LoadEnv} {path parent : List Str} (hp : parent = path.dropLast) :
    ∀ (is : List (Identifier × Import)) (f : Frontier),
    (loadImports T E path parent is f = none → ∃ i ∈ is, ∃ q, ImportDenotes E path i.2 q ∧ pathToNamespace T q = none) ∧
    (∀ is' f', loadImports T E path parent is f = some (is', f') → ImportsSpec T E path is is' f f')
  | [], f => by
    constructor
    · intro h; cases h
    · intro is' f' h
      rw [loadImports] at h
      injection h with h; injection h with h1 h2
      subst h1; subst h2
      exact ⟨⟨[], rfl, rfl, by simp⟩, id, ⟨[], by simp, fun _ => .nil, by simp, by simp⟩⟩
  | (n, i) :: is, f => by
    subst hp
    have ih := loadImports_spec (T := T) (E := E) (path := path) rfl is
    rw [loadImports]
    -- the body
    have body : (loadImport T E path path.dropLast i f = none → ∃ q, ImportDenotes E path i q ∧ pathToNamespace T q = none) ∧
        (∀ i' f', loadImport T E path path.dropLast i f = some (i', f') → ImportsSpec T E path [(n, i)] [(n, i')] f f') := by
      unfold loadImport
      cases hc : E.fs.canonicalize (E.base.join ((FPath.rel path.dropLast).join (FPath.ofStr i.path))) with
      | none =>
        refine ⟨(fun h => by cases h), fun i' f' h => ?_⟩
        injection h with h; injection h with h1 h2
        subst h1; subst h2
        refine ⟨⟨[], rfl, rfl, by simp⟩, id, ⟨[_], rfl, by simp, fun _ => ⟨(n, i), by simp, fun q hq => ?_⟩, by simp⟩⟩
        rw [ImportDenotes, hc] at hq; cases hq
      | some canonical =>
        dsimp only
        cases hs : stripPrefix E.canonicalBase canonical with
        | none =>
          refine ⟨(fun h => by cases h), fun i' f' h => ?_⟩
          injection h with h; injection h with h1 h2
          subst h1; subst h2
          refine ⟨⟨[], rfl, rfl, by simp⟩, id, ⟨[_], rfl, by simp, fun _ => ⟨(n, i), by simp, fun q hq => ?_⟩, by simp⟩⟩
          rw [ImportDenotes, hc] at hq
          injection hq with hq
          rw [stripPrefix_iff.mpr hq] at hs; cases hs
        | some based =>
          dsimp only
          have hd : ImportDenotes E path i based := by rw [ImportDenotes, hc, stripPrefix_iff.mp hs]
          cases hn : pathToNamespace T based with
          | none => exact ⟨fun _ => ⟨based, hd, hn⟩, fun i' f' h => by cases h⟩
          | some ns =>
            dsimp only
            refine ⟨(fun h => by cases h), fun i' f' h => ?_⟩
            injection h with h; injection h with h1 h2
            by_cases hv : f.visited.contains ns.key = true
            · rw [if_pos hv] at h2
              subst h1; subst h2
              refine ⟨⟨[], rfl, rfl, by simp⟩, id, ⟨[], by simp, fun _ => ?_, by simp, by simp⟩⟩
              exact .cons ⟨rfl, based, ns, hd, hn, rfl, by simpa using hv⟩ .nil
            · rw [if_neg hv] at h2
              subst h1; subst h2
              refine ⟨⟨[(ns, based)], rfl, rfl, ?_⟩, ?_, ⟨[], by simp, fun _ => ?_, by simp, by simp⟩⟩
              · intro e he
                simp only [List.mem_singleton] at he
                subst he
                exact ⟨hn, (n, i), by simp, hd⟩
              · intro h
                exact List.nodup_cons.mpr ⟨by simpa using hv, h⟩
              · exact .cons ⟨rfl, based, ns, hd, hn, rfl, by simp⟩ .nil
    cases hb : loadImport T E path path.dropLast i f with
    | none =>
      refine ⟨fun _ => ?_, fun _ _ h => by cases h⟩
      obtain ⟨q, h1, h2⟩ := body.1 hb
      exact ⟨(n, i), by simp, q, h1, h2⟩
    | some r =>
      obtain ⟨i', f1⟩ := r
      have hb := body.2 i' f1 hb
      dsimp only
      cases hl : loadImports T E path path.dropLast is f1 with
      | none =>
        refine ⟨fun _ => ?_, fun _ _ h => by cases h⟩
        obtain ⟨j, hj, q, h1, h2⟩ := (ih f1).1 hl
        exact ⟨j, by simp [hj], q, h1, h2⟩
      | some r =>
        obtain ⟨is', f2⟩ := r
        refine ⟨(fun h => by cases h), fun js f' h => ?_⟩
        injection h with h; injection h with h1 h2
        subst h1; subst h2
        have hl := (ih f1).2 is' f2 hl
        obtain ⟨new1, a1, a2, a3⟩ := hb.frontier
        obtain ⟨new2, b1, b2, b3⟩ := hl.frontier
        obtain ⟨e1, c1, c2, c3, c4⟩ := hb.errors
        obtain ⟨e2, d1, d2, d3, d4⟩ := hl.errors
        refine ⟨⟨new2 ++ new1, by rw [b1, a1]; simp, by rw [b2, a2]; simp, ?_⟩, fun h => hl.nodup (hb.nodup h),
          ⟨e1 ++ e2, by rw [d1, c1]; simp, ?_, ?_, fun p q hm => (List.mem_append.mp hm).elim (c4 p q) (d4 p q)⟩⟩
        · intro e he
          rcases List.mem_append.mp he with he | he
          · obtain ⟨g1, j, g2, g3⟩ := b3 e he
            exact ⟨g1, j, by simp [g2], g3⟩
          · obtain ⟨g1, j, g2, g3⟩ := a3 e he
            simp only [List.mem_singleton] at g2
            subst g2
            exact ⟨g1, _, by simp, g3⟩
        · intro h
          obtain ⟨h1, h2⟩ := List.append_eq_nil_iff.mp h
          have k1 := c2 h1
          cases k1 with
          | cons k1 _ =>
            obtain ⟨l1, q, ns, l2, l3, l4, l5⟩ := k1
            exact .cons ⟨l1, q, ns, l2, l3, l4, by rw [b2]; exact List.mem_append_right _ l5⟩ (d2 h2)
        · intro h
          by_cases h1 : e1 = []
          · have h2 : e2 ≠ [] := by rintro rfl; exact h (by rw [h1]; rfl)
            obtain ⟨j, hj, hq⟩ := d3 h2
            exact ⟨j, by simp [hj], hq⟩
          · obtain ⟨j, hj, hq⟩ := c3 h1
            simp only [List.mem_singleton] at hj
            subst hj
            exact ⟨_, by simp, hq⟩

/-- The invariant of the loop over the frontier. `done`: the keys of the namespaces which have been processed. -/
structure LoadInv (T : CharTable) (E : LoadEnv) (root : List Str) (f : Frontier) (S : List (Namespace × LoadedFile))
    (done : List (List Str)) : Prop where
  toLoad : ∀ e ∈ f.toLoad, ReachableFile T E root e.2 ∧ pathToNamespace T e.2 = some e.1
  nodup : f.visited.Nodup
  perm : f.visited.Perm (f.toLoad.map (fun e => e.1.key) ++ done)
  reached : ∀ k ∈ done, ∃ p ns, ReachableFile T E root p ∧ pathToNamespace T p = some ns ∧ ns.key = k
  sorted : KeySorted S
  keys : ∀ e ∈ S, e.1.key ∈ done
  all : f.errors = [] → ∀ k ∈ done, k ∈ S.map (fun e => e.1.key)
  entries : ∀ e ∈ S, ReachableFile T E root e.2.path ∧ pathToNamespace T e.2.path = some e.1 ∧
    ∃ s, Parses T E e.2.path e.2.contents s ∧ (f.errors = [] → ResolvedSchema T E e.2.path s e.2.schema ∧
      ∀ i ∈ e.2.schema.imports, ∀ ns, i.2.namespace_ = some ns → ns.key ∈ f.visited)
  bad : f.errors ≠ [] → ∃ p, ReachableFile T E root p ∧ ¬ LoadableFile T E p
  root : f.errors = [] → (∃ e ∈ f.toLoad, e.2 = root) ∨ ∃ e ∈ S, e.2.path = root

/-- What the result of loading means. -/
def LoadSpec (T : CharTable) (E : LoadEnv) (root : List Str) (steps : Nat) : LoadResult → Prop
  | .panic => ∃ p, ReachableFile T E root p ∧ ¬ LoadableFile T E p
  | .running => ∃ keys : List (List Str), keys.Nodup ∧ keys.length = steps ∧
      ∀ k ∈ keys, ∃ p ns, ReachableFile T E root p ∧ pathToNamespace T p = some ns ∧ ns.key = k
  | .err errors => (∀ p q, LoadErr.conflict p q ∉ errors) ∧ ∃ p, ReachableFile T E root p ∧ ¬ LoadableFile T E p
  | .ok S => ∃ done, LoadInv T E root ⟨[], done, []⟩ S done

theorem each_mem_right {α β : Type} {R : α → β → Prop} {as : List α} {bs : List β} (h : Each R as bs) :
    ∀ b ∈ bs, ∃ a ∈ as, R a b := by
  induction h with
  | nil => simp
  | cons h0 _ ih =>
    intro b hb
    rcases List.mem_cons.mp hb with rfl | hb
    · exact ⟨_, by simp, h0⟩
    · obtain ⟨a, ha, hr⟩ := ih b hb
      exact ⟨a, by simp [ha], hr⟩

theorem parses_unique {T : CharTable} {E : LoadEnv} {p : List Str} {c c' : Str} {s s' : Schema} (h : Parses T E p c s)
    (h' : Parses T E p c' s') : c = c' ∧ s = s' := by
  obtain ⟨h1, toks, h2, h3⟩ := h
  obtain ⟨h1', toks', h2', h3'⟩ := h'
  rw [h1] at h1'; injection h1' with h1'; subst h1'
  rw [h2] at h2'; injection h2' with h2'; subst h2'
  rw [h3] at h3'; injection h3' with h3'; subst h3'
  exact ⟨rfl, rfl⟩

/-- A step which only adds an error. -/
theorem inv_error {T : CharTable} {E : LoadEnv} {root : List Str} {ns : Namespace} {path : List Str}
    {rest : List (Namespace × List Str)} {visited : List (List Str)} {errors : List LoadErr} {S : List (Namespace × LoadedFile)}
    {done : List (List Str)} {e : LoadErr} (h : LoadInv T E root ⟨(ns, path) :: rest, visited, errors⟩ S done)
    (hb : ¬ LoadableFile T E path) : LoadInv T E root ⟨rest, visited, errors ++ [e]⟩ S (ns.key :: done) := by
  have hr := h.toLoad (ns, path) (by simp)
  refine ⟨fun e he => h.toLoad e (by simp [he]), h.nodup, h.perm.trans ?_, ?_, h.sorted, fun e he => by simp [h.keys e he],
    by simp, ?_, fun _ => ⟨path, hr.1, hb⟩, by simp⟩
  · simpa using (List.perm_middle (a := ns.key) (l₁ := rest.map (fun e => e.1.key)) (l₂ := done)).symm
  · intro k hk
    rcases List.mem_cons.mp hk with rfl | hk
    · exact ⟨path, ns, hr.1, hr.2, rfl⟩
    · exact h.reached k hk
  · intro e he
    obtain ⟨a, b, s, c, -⟩ := h.entries e he
    exact ⟨a, b, s, c, by simp⟩

theorem loadLoop_spec {T : CharTable} {E : LoadEnv} {root : List Str} : ∀ (fuel : Nat) (f : Frontier)
    (S : List (Namespace × LoadedFile)) (done : List (List Str)), LoadInv T E root f S done →
    (∀ p q, LoadErr.conflict p q ∉ f.errors) → LoadSpec T E root (done.length + fuel) (loadLoop T E fuel f S)
  | 0, f, _, done, h, _ => by
    refine ⟨done, ?_, rfl, h.reached⟩
    have := (h.perm.nodup_iff).mp h.nodup
    exact (List.nodup_append.mp this).2.1
  | fuel + 1, ⟨toLoad, visited, errors⟩, S, done, h, hc => by
    rw [loadLoop]
    cases toLoad with
    | nil =>
      dsimp only
      split
      · rename_i he
        subst he
        have hp := h.perm
        simp only [List.map_nil, List.nil_append] at hp
        refine ⟨done, ⟨by simp, (hp.nodup_iff).mp h.nodup, by simp, h.reached, h.sorted, h.keys, h.all, ?_, by simp, h.root⟩⟩
        intro e he
        obtain ⟨a, b, s, c, d⟩ := h.entries e he
        exact ⟨a, b, s, c, fun hh => ⟨(d hh).1, fun i hi ns hn => hp.mem_iff.mp ((d hh).2 i hi ns hn)⟩⟩
      · rename_i he
        exact ⟨hc, h.bad he⟩
    | cons e rest =>
      obtain ⟨ns, path⟩ := e
      have hr := h.toLoad (ns, path) (by simp)
      have hce : ∀ e, (∀ p q, e ≠ LoadErr.conflict p q) → ∀ p q, LoadErr.conflict p q ∉ errors ++ [e] := by
        intro e he p q hm
        rcases List.mem_append.mp hm with hm | hm
        · exact hc p q hm
        · simp only [List.mem_singleton] at hm
          exact he p q hm.symm
      have hlen : done.length + (fuel + 1) = (ns.key :: done).length + fuel := by simp only [List.length_cons]; omega
      rw [hlen]
      dsimp only
      cases h1 : E.fs.read (E.base.join (.rel path)) with
      | none =>
        dsimp only
        refine loadLoop_spec fuel _ S _ (inv_error h ?_) (hce _ (by simp))
        rintro ⟨-, c, s, ⟨h2, -⟩, -⟩
        rw [h1] at h2; cases h2
      | some contents =>
        dsimp only
        cases h2 : tokenize T contents with
        | error es =>
          dsimp only
          refine loadLoop_spec fuel _ S _ (inv_error h ?_) (hce _ (by simp))
          rintro ⟨-, c, s, ⟨h3, toks, h4, -⟩, -⟩
          rw [h1] at h3; injection h3 with h3; subst h3
          rw [h2] at h4; cases h4
        | ok toks =>
          dsimp only
          cases h3 : parse T toks with
          | panic =>
            refine ⟨path, hr.1, ?_⟩
            rintro ⟨-, c, s, ⟨h4, toks', h5, h6⟩, -⟩
            rw [h1] at h4; injection h4 with h4; subst h4
            rw [h2] at h5; injection h5 with h5; subst h5
            rw [h3] at h6; cases h6
          | err es =>
            dsimp only
            refine loadLoop_spec fuel _ S _ (inv_error h ?_) (hce _ (by simp))
            rintro ⟨-, c, s, ⟨h4, toks', h5, h6⟩, -⟩
            rw [h1] at h4; injection h4 with h4; subst h4
            rw [h2] at h5; injection h5 with h5; subst h5
            rw [h3] at h6; cases h6
          | ok schema =>
            dsimp only
            have hpa : Parses T E path contents schema := ⟨h1, toks, h2, h3⟩
            unfold FPath.parent FPath.rel
            dsimp only
            by_cases hpe : path = []
            · rw [if_pos hpe]
              exact ⟨path, hr.1, fun hl => hl.1 hpe⟩
            rw [if_neg hpe]
            dsimp only
            obtain ⟨l1, l2⟩ := loadImports_spec (T := T) (E := E) (path := path) rfl schema.imports ⟨rest, visited, errors⟩
            cases h4 : loadImports T E path path.dropLast schema.imports ⟨rest, visited, errors⟩ with
            | none =>
              dsimp only
              obtain ⟨i, hi, q, hq1, hq2⟩ := l1 h4
              refine ⟨path, hr.1, ?_⟩
              rintro ⟨-, c, s, hs, hl⟩
              obtain ⟨-, rfl⟩ := parses_unique hpa hs
              obtain ⟨q', ns', hq3, hq4⟩ := hl i hi
              rw [ImportDenotes] at hq1 hq3
              rw [hq1] at hq3
              injection hq3 with hq3
              rw [List.append_cancel_left hq3, hq4] at hq2
              cases hq2
            | some r =>
              obtain ⟨imports, f'⟩ := r
              dsimp only
              obtain ⟨⟨new, n1, n2, n3⟩, nd, ⟨es, e1, e2, e3, e4⟩⟩ := l2 imports f' h4
              dsimp only at n1 n2 e1 nd
              have hkd : ns.key ∉ done := by
                have := (h.perm.nodup_iff).mp h.nodup
                simp only [List.map_cons, List.cons_append, List.nodup_cons, List.mem_append, not_or] at this
                exact this.1.2
              have hkS : ns.key ∉ S.map (fun e => e.1.key) := by
                intro hm
                obtain ⟨e, he, hek⟩ := List.mem_map.mp hm
                exact hkd (hek ▸ h.keys e he)
              obtain ⟨s1, s2, s3⟩ := insertLoaded_spec ns (LoadedFile.mk { schema with imports := imports } path contents) S
                h.sorted hkS
              generalize hins : insertLoaded ns (LoadedFile.mk { schema with imports := imports } path contents) S = ins at *
              obtain ⟨S', old⟩ := ins
              dsimp only at s1 s2 s3
              subst s1
              dsimp only
              have hmono : f'.errors = [] → errors = [] ∧ es = [] := by
                intro h; rw [e1] at h; exact List.append_eq_nil_iff.mp h
              refine loadLoop_spec fuel f' S' (ns.key :: done) ?_ ?_
              · refine ⟨?_, nd h.nodup, ?_, ?_, s2, ?_, ?_, ?_, ?_, ?_⟩
                · intro e he
                  rw [n1] at he
                  rcases List.mem_append.mp he with he | he
                  · obtain ⟨g1, i, g2, g3⟩ := n3 e he
                    exact ⟨.step hr.1 hpa g2 g3, g1⟩
                  · exact h.toLoad e (by simp [he])
                · rw [n1, n2, List.map_append, List.append_assoc]
                  refine List.Perm.append_left _ (h.perm.trans ?_)
                  simpa using (List.perm_middle (a := ns.key) (l₁ := rest.map (fun e => e.1.key)) (l₂ := done)).symm
                · intro k hk
                  rcases List.mem_cons.mp hk with rfl | hk
                  · exact ⟨path, ns, hr.1, hr.2, rfl⟩
                  · exact h.reached k hk
                · intro e he
                  rcases List.mem_cons.mp (s3.mem_iff.mp he) with rfl | he
                  · simp
                  · simp [h.keys e he]
                · intro he k hk
                  have : k ∈ ((ns, LoadedFile.mk { schema with imports := imports } path contents) :: S).map (fun e => e.1.key) := by
                    rcases List.mem_cons.mp hk with rfl | hk
                    · simp
                    · exact List.mem_cons_of_mem _ (h.all (hmono he).1 k hk)
                  exact (s3.map _).mem_iff.mpr this
                · intro e he
                  rcases List.mem_cons.mp (s3.mem_iff.mp he) with rfl | he
                  · refine ⟨hr.1, hr.2, schema, hpa, fun hh => ?_⟩
                    have hE := e2 (hmono hh).2
                    refine ⟨⟨rfl, rfl, each_of_mono hE ?_⟩, ?_⟩
                    · rintro a b ⟨k1, q, ns, k2, k3, k4, -⟩
                      exact ⟨k1, q, ns, k2, k3, k4⟩
                    · intro i hi ns' hns'
                      obtain ⟨a, -, -, q, ns2, -, -, k4, k5⟩ := each_mem_right hE i hi
                      rw [k4] at hns'
                      injection hns' with hns'
                      rw [← hns']; exact k5
                  · obtain ⟨a, b, s, c, d⟩ := h.entries e he
                    refine ⟨a, b, s, c, fun hh => ?_⟩
                    obtain ⟨d1, d2⟩ := d (hmono hh).1
                    refine ⟨d1, fun i hi ns' hns' => ?_⟩
                    rw [n2]
                    exact List.mem_append_right _ (d2 i hi ns' hns')
                · intro hne
                  by_cases he : es = []
                  · refine h.bad ?_
                    rintro rfl
                    rw [e1, he] at hne
                    exact hne rfl
                  · obtain ⟨i, hi, hq⟩ := e3 he
                    refine ⟨path, hr.1, ?_⟩
                    rintro ⟨-, c, s, hs, hl⟩
                    obtain ⟨-, rfl⟩ := parses_unique hpa hs
                    obtain ⟨q, _, hq', _⟩ := hl i hi
                    exact hq q hq'
                · intro hh
                  rcases h.root (hmono hh).1 with ⟨e, he, her⟩ | ⟨e, he, her⟩
                  · rcases List.mem_cons.mp he with rfl | he
                    · exact .inr ⟨_, s3.mem_iff.mpr (List.mem_cons_self ..), her⟩
                    · exact .inl ⟨e, by rw [n1]; exact List.mem_append_right _ he, her⟩
                  · exact .inr ⟨e, s3.mem_iff.mpr (List.mem_cons_of_mem _ he), her⟩
              · intro p q hm
                rw [e1] at hm
                exact (List.mem_append.mp hm).elim (hc p q) (e4 p q)

end Typical
