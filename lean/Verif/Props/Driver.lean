import Verif.Spec.Driver
import Verif.Props.Loader
import Verif.Props.Validator

/-!
# Properties of the subcommands `format` (C42) and `generate` (C44)
-/

namespace Typical

/-! ## `format` -/

theorem formatLoop_check {T : CharTable} {F : Nat → Str → Str} {dir : FPath} {can : FPath → Bool} :
    ∀ (S : List (Namespace × LoadedFile)) (any : Bool),
    formatLoop T F dir true can S any = (some (any || S.any (fun e => e.2.contents != format T F e.2.schema)), [])
  | [], any => by simp [formatLoop]
  | e :: S, any => by
    rw [formatLoop]
    dsimp only
    rw [Bool.not_true, Bool.and_false, if_neg (by simp), formatLoop_check S, List.any_cons]
    cases (e.2.contents != format T F e.2.schema) <;> cases any <;> simp

/-- A file is loaded only if it has a directory. -/
theorem load_parent {T : CharTable} {fs : FileSystem} {fuel : Nat} {path : FPath} {S : List (Namespace × LoadedFile)}
    (h : loadSchemas T fs fuel path = .ok S) : ∃ E name, loadEnv fs path = some (E, name) ∧ path.parent = some E.base ∧ E.fs = fs := by
  obtain ⟨E, name, hE, -⟩ := C40_loaded h
  refine ⟨E, name, hE, ?_⟩
  unfold loadEnv at hE
  cases hp : path.parent with
  | none => rw [hp] at hE; cases hE
  | some base =>
    rw [hp] at hE
    dsimp only at hE
    split at hE
    · cases hE
    · split at hE
      · cases hE
      · injection hE with hE; injection hE with hE; subst hE; exact ⟨rfl, rfl⟩

/-- **C42 (check).** `format --check` writes nothing, and succeeds exactly if all files load and each has the text which formatting
it would give. -/
theorem C42_check {T : CharTable} {F : Nat → Str → Str} {fs : FileSystem} {fuel : Nat} {can : FPath → Bool} {path : FPath} :
    (formatSchema T F fs fuel can path true).2 = [] ∧
    ((formatSchema T F fs fuel can path true).1 = .success ↔
      ∃ S, loadSchemas T fs fuel path = .ok S ∧ ∀ e ∈ S, e.2.contents = format T F e.2.schema) := by
  unfold formatSchema
  cases h : loadSchemas T fs fuel path with
  | panic => simp
  | running => simp
  | err es => simp
  | ok S =>
    obtain ⟨E, name, hE, hp, -⟩ := load_parent h
    dsimp only
    rw [hp]
    dsimp only
    rw [formatLoop_check]
    refine ⟨rfl, ?_⟩
    simp only [Bool.false_or, Bool.true_and]
    constructor
    · intro hs
      refine ⟨S, rfl, fun e he => ?_⟩
      by_cases ha : (S.any (fun e => e.2.contents != format T F e.2.schema)) = true
      · rw [if_pos ha] at hs; cases hs
      · have ha : (S.any (fun e => e.2.contents != format T F e.2.schema)) = false := by simpa using ha
        rw [List.any_eq_false] at ha
        have := ha e he
        simpa using this
    · rintro ⟨S', hS, hall⟩
      injection hS with hS
      subst hS
      rw [if_neg]
      simp only [Bool.not_eq_true, List.any_eq_false]
      intro e he
      simp [hall e he]

theorem formatLoop_writes {T : CharTable} {F : Nat → Str → Str} {dir : FPath} {can : FPath → Bool} :
    ∀ (S : List (Namespace × LoadedFile)) (any : Bool),
    (∀ w ∈ (formatLoop T F dir false can S any).2, ∃ e ∈ S, e.2.contents ≠ format T F e.2.schema ∧
      w = (dir.join (.rel e.2.path), format T F e.2.schema)) ∧
    ((formatLoop T F dir false can S any).1 ≠ none → ∀ e ∈ S, e.2.contents ≠ format T F e.2.schema →
      (dir.join (.rel e.2.path), format T F e.2.schema) ∈ (formatLoop T F dir false can S any).2)
  | [], any => by simp [formatLoop]
  | e :: S, any => by
    rw [formatLoop]
    dsimp only
    by_cases hu : e.2.contents = format T F e.2.schema
    · rw [if_neg (by simp [hu])]
      obtain ⟨h1, h2⟩ := formatLoop_writes S (if (e.2.contents != format T F e.2.schema) = true then true else any)
      refine ⟨fun w hw => ?_, fun hne e' he' hn => ?_⟩
      · obtain ⟨e', he', hh⟩ := h1 w hw
        exact ⟨e', by simp [he'], hh⟩
      · rcases List.mem_cons.mp he' with rfl | he'
        · exact absurd hu hn
        · exact h2 hne e' he' hn
    · rw [if_pos (by simp [hu])]
      split
      · obtain ⟨h1, h2⟩ := formatLoop_writes S (if (e.2.contents != format T F e.2.schema) = true then true else any)
        refine ⟨fun w hw => ?_, fun hne e' he' hn => ?_⟩
        · rcases List.mem_cons.mp hw with rfl | hw
          · exact ⟨e, by simp, hu, rfl⟩
          · obtain ⟨e', he', hh⟩ := h1 w hw
            exact ⟨e', by simp [he'], hh⟩
        · rcases List.mem_cons.mp he' with rfl | he'
          · exact List.mem_cons_self ..
          · exact List.mem_cons_of_mem _ (h2 hne e' he' hn)
      · exact ⟨by simp, fun h => absurd rfl h⟩

/-- **C42 (writing).** Without `--check`, only files whose text differs from their formatted text are written, with that
text; and if the run succeeds, all of them. -/
theorem C42_writes {T : CharTable} {F : Nat → Str → Str} {fs : FileSystem} {fuel : Nat} {can : FPath → Bool} {path : FPath}
    {S : List (Namespace × LoadedFile)} (h : loadSchemas T fs fuel path = .ok S) {dir : FPath} (hd : path.parent = some dir) :
    (∀ w ∈ (formatSchema T F fs fuel can path false).2, ∃ e ∈ S, e.2.contents ≠ format T F e.2.schema ∧
      w = (dir.join (.rel e.2.path), format T F e.2.schema)) ∧
    ((formatSchema T F fs fuel can path false).1 = .success → ∀ e ∈ S, e.2.contents ≠ format T F e.2.schema →
      (dir.join (.rel e.2.path), format T F e.2.schema) ∈ (formatSchema T F fs fuel can path false).2) := by
  obtain ⟨h1, h2⟩ := formatLoop_writes (T := T) (F := F) (dir := dir) (can := can) S false
  unfold formatSchema
  rw [h]
  dsimp only
  rw [hd]
  dsimp only
  cases hr : formatLoop T F dir false can S false with
  | mk a ws =>
    rw [hr] at h1 h2
    cases a with
    | none => exact ⟨h1, fun h => by cases h⟩
    | some any => exact ⟨h1, fun _ => h2 (by simp)⟩

/-- **C42 (run).** Without `--check`, `format` writes the files whose text differs from their formatted text, with that text, in the
order of their namespaces, up to the first write which fails; it succeeds exactly if none fails. -/
theorem C42_run {T : CharTable} {F : Nat → Str → Str} {fs : FileSystem} {fuel : Nat} {can : FPath → Bool} {path : FPath}
    {S : List (Namespace × LoadedFile)} (h : loadSchemas T fs fuel path = .ok S) {dir : FPath} (hd : path.parent = some dir) :
    let planned := (S.filter (fun e => e.2.contents ≠ format T F e.2.schema)).map
      (fun e => (FPath.mk dir.absolute (dir.parts ++ e.2.path), format T F e.2.schema))
    formatSchema T F fs fuel can path false =
      (if planned.all (fun w => can w.1) then .success else .failure, planned.takeWhile (fun w => can w.1)) := by
  intro planned
  unfold formatSchema
  rw [h]
  dsimp only
  rw [hd]
  dsimp only
  have key : ∀ (S : List (Namespace × LoadedFile)) (any : Bool),
      let planned := (S.filter (fun e => e.2.contents ≠ format T F e.2.schema)).map
        (fun e => (FPath.mk dir.absolute (dir.parts ++ e.2.path), format T F e.2.schema))
      (formatLoop T F dir false can S any).2 = planned.takeWhile (fun w => can w.1) ∧
      ((formatLoop T F dir false can S any).1.isSome = planned.all (fun w => can w.1)) := by
    intro S
    induction S with
    | nil => intro any; exact ⟨rfl, rfl⟩
    | cons e S ih =>
      intro any
      dsimp only
      rw [formatLoop]
      dsimp only
      obtain ⟨ih1, ih2⟩ := ih (if (e.2.contents != format T F e.2.schema) = true then true else any)
      by_cases hu : e.2.contents = format T F e.2.schema
      · rw [if_neg (by simp [hu]), List.filter_cons_of_neg (by simp [hu])]
        exact ⟨ih1, ih2⟩
      · rw [if_pos (by simp [hu]), List.filter_cons_of_pos (by simp [hu]), List.map_cons, List.takeWhile_cons, List.all_cons]
        have hj : dir.join (.rel e.2.path) = FPath.mk dir.absolute (dir.parts ++ e.2.path) := rfl
        rw [hj]
        by_cases hc : can (FPath.mk dir.absolute (dir.parts ++ e.2.path)) = true
        · rw [if_pos hc, if_pos hc, hc, Bool.true_and]
          exact ⟨by rw [ih1], ih2⟩
        · rw [if_neg hc, if_neg hc]
          exact ⟨rfl, by simp [hc]⟩
  obtain ⟨k1, k2⟩ := key S false
  change _ = (if planned.all (fun w => can w.1) then Outcome.success else .failure, planned.takeWhile (fun w => can w.1))
  have k1 : _ = planned.takeWhile (fun w => can w.1) := k1
  have k2 : _ = planned.all (fun w => can w.1) := k2
  rw [← k1, ← k2]
  generalize formatLoop T F dir false can S false = r
  obtain ⟨a, ws⟩ := r
  cases a with
  | none => rfl
  | some any => simp

/-- Nothing is written if the files cannot be loaded. -/
theorem C42_load_failure {T : CharTable} {F : Nat → Str → Str} {fs : FileSystem} {fuel : Nat} {can : FPath → Bool} {path : FPath}
    {check : Bool} (h : ∀ S, loadSchemas T fs fuel path ≠ .ok S) :
    (formatSchema T F fs fuel can path check).2 = [] ∧ (formatSchema T F fs fuel can path check).1 ≠ .success := by
  unfold formatSchema
  cases hl : loadSchemas T fs fuel path with
  | ok S => exact absurd hl (h S)
  | _ => simp

/-! ### Formatting, then checking -/

theorem loadLoop_ok_errors {T : CharTable} {E : LoadEnv} : ∀ (fuel : Nat) (f : Frontier) (S R : List (Namespace × LoadedFile)),
    loadLoop T E fuel f S = .ok R → f.errors = []
  | 0, _, _, _, h => by cases h
  | fuel + 1, ⟨toLoad, visited, errors⟩, S, R, h => by
    rw [loadLoop] at h
    have app : ∀ {e : LoadErr}, errors ++ [e] = [] → errors = [] := fun h => by simp at h
    cases toLoad with
    | nil =>
      dsimp only at h
      split at h
      · assumption
      · cases h
    | cons e rest =>
      obtain ⟨ns, path⟩ := e
      dsimp only at h ⊢
      cases h1 : E.fs.read (E.base.join (.rel path)) with
      | none => rw [h1] at h; exact app (loadLoop_ok_errors fuel _ _ _ h)
      | some contents =>
        rw [h1] at h
        dsimp only at h
        cases h2 : tokenize T contents with
        | error es => rw [h2] at h; exact app (loadLoop_ok_errors fuel _ _ _ h)
        | ok toks =>
          rw [h2] at h
          dsimp only at h
          cases h3 : parse T toks with
          | panic => rw [h3] at h; cases h
          | err es => rw [h3] at h; exact app (loadLoop_ok_errors fuel _ _ _ h)
          | ok schema =>
            rw [h3] at h
            dsimp only at h
            by_cases hpe : path = []
            · rw [FPath.parent, if_pos (by simpa [FPath.rel] using hpe)] at h; cases h
            rw [FPath.parent, if_neg (by simpa [FPath.rel] using hpe)] at h
            dsimp only [FPath.rel] at h
            have l2 := (loadImports_spec (T := T) (E := E) (path := path) rfl schema.imports ⟨rest, visited, errors⟩).2
            cases h5 : loadImports T E path path.dropLast schema.imports ⟨rest, visited, errors⟩ with
            | none => rw [h5] at h; cases h
            | some r =>
              obtain ⟨imports, f'⟩ := r
              rw [h5] at h
              dsimp only at h
              obtain ⟨new, g1, -⟩ := (l2 _ _ h5).errors
              have fin : f'.errors = [] → errors = [] := fun h => by
                rw [g1] at h; exact (List.append_eq_nil_iff.mp h).1
              cases h6 : insertLoaded ns (LoadedFile.mk { schema with imports := imports } path contents) S with
              | mk S' old =>
                rw [h6] at h
                cases old with
                | none => exact fin (loadLoop_ok_errors fuel _ _ _ h)
                | some o =>
                  have := loadLoop_ok_errors fuel _ _ _ h
                  simp at this

/-- Imports with the same names and paths are loaded in the same way. -/
theorem loadImports_same {T : CharTable} {E E' : LoadEnv} (hb : E'.base = E.base) (hcb : E'.canonicalBase = E.canonicalBase)
    (hcan : E'.fs.canonicalize = E.fs.canonicalize) {path parent : List Str} {is js : List (Identifier × Import)}
    (h : Each SameImport is js) : ∀ {f f' : Frontier} {is' : List (Identifier × Import)},
    loadImports T E path parent is f = some (is', f') → f'.errors = [] →
    ∃ js', loadImports T E' path parent js f = some (js', f') := by
  induction h with
  | nil =>
    intro f f' is' h _
    rw [loadImports] at h
    injection h with h; injection h with h1 h2
    subst h2
    exact ⟨[], rfl⟩
  | @cons a b as bs h0 _ ih =>
    obtain ⟨n, i⟩ := a
    obtain ⟨m, j⟩ := b
    intro f f' is' h he
    rw [loadImports] at h ⊢
    cases hb1 : loadImport T E path parent i f with
    | none => rw [hb1] at h; cases h
    | some r =>
      obtain ⟨i', f1⟩ := r
      rw [hb1] at h
      dsimp only at h
      cases hl : loadImports T E path parent as f1 with
      | none => rw [hl] at h; cases h
      | some r =>
        obtain ⟨is1, f2⟩ := r
        rw [hl] at h
        injection h with h; injection h with h1 h2
        subst h2
        obtain ⟨js', hjs⟩ := ih hl he
        -- no error in the first import
        have herr : f1.errors = [] := by
          clear ih
          have key : ∀ (l : List (Identifier × Import)) (f f' : Frontier) (l' : List (Identifier × Import)),
              loadImports T E path parent l f = some (l', f') → f'.errors = [] → f.errors = [] := by
            intro l
            induction l with
            | nil =>
              intro f f' l' h he
              rw [loadImports] at h
              injection h with h; injection h with h1 h2
              subst h2; exact he
            | cons x l ih =>
              obtain ⟨n, i⟩ := x
              intro f f' l' h he
              rw [loadImports] at h
              cases hb1 : loadImport T E path parent i f with
              | none => rw [hb1] at h; cases h
              | some r =>
                obtain ⟨i', f1⟩ := r
                rw [hb1] at h
                dsimp only at h
                cases hl : loadImports T E path parent l f1 with
                | none => rw [hl] at h; cases h
                | some r =>
                  obtain ⟨l1, f2⟩ := r
                  rw [hl] at h
                  injection h with h; injection h with h1 h2
                  subst h2
                  have := ih f1 f2 l1 hl he
                  unfold loadImport at hb1
                  split at hb1
                  · injection hb1 with hb1; injection hb1 with k1 k2; subst k2; simp at this
                  · split at hb1
                    · injection hb1 with hb1; injection hb1 with k1 k2; subst k2; simp at this
                    · split at hb1
                      · cases hb1
                      · injection hb1 with hb1; injection hb1 with k1 k2; subst k2
                        split at this <;> exact this
          exact key _ _ _ _ hl he
        have hj : ∃ j', loadImport T E' path parent j f = some (j', f1) := by
          unfold loadImport at hb1 ⊢
          have hp : j.path = i.path := h0.2
          rw [hb, hcb, hcan, hp]
          cases hc1 : E.fs.canonicalize (E.base.join ((FPath.rel parent).join (FPath.ofStr i.path))) with
          | none =>
            rw [hc1] at hb1
            injection hb1 with hb1; injection hb1 with k1 k2; subst k2; simp at herr
          | some canonical =>
            rw [hc1] at hb1
            dsimp only at hb1 ⊢
            cases hc2 : stripPrefix E.canonicalBase canonical with
            | none =>
              rw [hc2] at hb1
              injection hb1 with hb1; injection hb1 with k1 k2; subst k2; simp at herr
            | some based =>
              rw [hc2] at hb1
              dsimp only at hb1 ⊢
              cases hc3 : pathToNamespace T based with
              | none => rw [hc3] at hb1; cases hb1
              | some ns =>
                rw [hc3] at hb1
                dsimp only at hb1 ⊢
                injection hb1 with hb1; injection hb1 with k1 k2
                exact ⟨_, by rw [k2]⟩
        obtain ⟨j', hj⟩ := hj
        rw [hj]
        dsimp only
        rw [hjs]
        exact ⟨_, rfl⟩

theorem insertLoaded_same {ns : Namespace} {v v' : LoadedFile} (hv : v'.path = v.path) {S S' : List (Namespace × LoadedFile)}
    (h : Each (fun e e' => e'.1 = e.1 ∧ e'.2.path = e.2.path) S S') :
    Each (fun e e' => e'.1 = e.1 ∧ e'.2.path = e.2.path) (insertLoaded ns v S).1 (insertLoaded ns v' S').1 ∧
    ((insertLoaded ns v S).2 = none → (insertLoaded ns v' S').2 = none) := by
  induction h with
  | nil => exact ⟨.cons ⟨rfl, hv⟩ .nil, fun _ => rfl⟩
  | @cons a b as bs h0 ht ih =>
    obtain ⟨n, w⟩ := a
    obtain ⟨m, x⟩ := b
    have h1 : m = n := h0.1
    subst h1
    simp only [insertLoaded]
    by_cases h1 : ns.key = m.key
    · rw [if_pos h1, if_pos h1]
      exact ⟨.cons ⟨rfl, hv⟩ ht, fun h => by cases h⟩
    · rw [if_neg h1, if_neg h1]
      by_cases h2 : keyBefore ns.key m.key = true
      · rw [if_pos h2, if_pos h2]
        exact ⟨.cons ⟨rfl, hv⟩ (.cons h0 ht), fun _ => rfl⟩
      · rw [if_neg h2, if_neg h2]
        exact ⟨.cons h0 ih.1, ih.2⟩

theorem insertLoaded_none_mem {α : Type} {ns : Namespace} {v : α} : ∀ {S : List (Namespace × α)}, (insertLoaded ns v S).2 = none →
    ∀ e, e = (ns, v) ∨ e ∈ S → e ∈ (insertLoaded ns v S).1
  | [], _, e, h => by
    rcases h with h | h
    · subst h; simp [insertLoaded]
    · cases h
  | (n, w) :: S, hnone, e, h => by
    rw [insertLoaded] at hnone ⊢
    by_cases h1 : ns.key = n.key
    · rw [if_pos h1] at hnone; cases hnone
    · rw [if_neg h1] at hnone ⊢
      by_cases h2 : keyBefore ns.key n.key = true
      · rw [if_pos h2]
        rcases h with h | h
        · subst h; simp
        · exact List.mem_cons_of_mem _ h
      · rw [if_neg h2] at hnone ⊢
        have ih := insertLoaded_none_mem (S := S) hnone
        rcases h with h | h
        · exact List.mem_cons_of_mem _ (ih e (.inl h))
        · rcases List.mem_cons.mp h with h | h
          · subst h; exact List.mem_cons_self ..
          · exact List.mem_cons_of_mem _ (ih e (.inr h))

/-- What has been stored stays. -/
theorem loadLoop_ok_mem {T : CharTable} {E : LoadEnv} : ∀ (fuel : Nat) (f : Frontier) (S R : List (Namespace × LoadedFile)),
    loadLoop T E fuel f S = .ok R → ∀ e ∈ S, e ∈ R
  | 0, _, _, _, h => by cases h
  | fuel + 1, ⟨toLoad, visited, errors⟩, S, R, h => by
    intro e he
    rw [loadLoop] at h
    cases toLoad with
    | nil =>
      dsimp only at h
      split at h
      · injection h with h; subst h; exact he
      · cases h
    | cons x rest =>
      obtain ⟨ns, path⟩ := x
      dsimp only at h ⊢
      cases h1 : E.fs.read (E.base.join (.rel path)) with
      | none => rw [h1] at h; exact loadLoop_ok_mem fuel _ _ _ h e he
      | some contents =>
        rw [h1] at h
        dsimp only at h
        cases h2 : tokenize T contents with
        | error es => rw [h2] at h; exact loadLoop_ok_mem fuel _ _ _ h e he
        | ok toks =>
          rw [h2] at h
          dsimp only at h
          cases h3 : parse T toks with
          | panic => rw [h3] at h; cases h
          | err es => rw [h3] at h; exact loadLoop_ok_mem fuel _ _ _ h e he
          | ok schema =>
            rw [h3] at h
            dsimp only at h
            cases h4 : (FPath.rel path).parent with
            | none => rw [h4] at h; cases h
            | some parent =>
              rw [h4] at h
              dsimp only at h
              cases h5 : loadImports T E path parent.parts schema.imports ⟨rest, visited, errors⟩ with
              | none => rw [h5] at h; cases h
              | some r =>
                obtain ⟨imports, f'⟩ := r
                rw [h5] at h
                dsimp only at h
                have hm := insertLoaded_none_mem (ns := ns) (v := LoadedFile.mk { schema with imports := imports } path contents) (S := S)
                cases h6 : insertLoaded ns (LoadedFile.mk { schema with imports := imports } path contents) S with
                | mk S' old =>
                  rw [h6] at h hm
                  cases old with
                  | none => exact loadLoop_ok_mem fuel _ _ _ h e (hm rfl e (.inr he))
                  | some o =>
                    have := loadLoop_ok_errors fuel _ _ _ h
                    simp at this

theorem loadLoop_same {T : CharTable} {E E' : LoadEnv} {R : List (Namespace × LoadedFile)} (hb : E'.base = E.base)
    (hcb : E'.canonicalBase = E.canonicalBase) (hcan : E'.fs.canonicalize = E.fs.canonicalize)
    (H : ∀ e ∈ R, ∀ c s, Parses T E e.2.path c s → ∃ c' s', Parses T E' e.2.path c' s' ∧ Each SameImport s.imports s'.imports) :
    ∀ (fuel : Nat) (f : Frontier) (S S' : List (Namespace × LoadedFile)),
    Each (fun e e' => e'.1 = e.1 ∧ e'.2.path = e.2.path) S S' → loadLoop T E fuel f S = .ok R →
    ∃ R', loadLoop T E' fuel f S' = .ok R' ∧ Each (fun e e' => e'.1 = e.1 ∧ e'.2.path = e.2.path) R R'
  | 0, _, _, _, _, h => by cases h
  | fuel + 1, ⟨toLoad, visited, errors⟩, S, S', hS, h => by
    have herr := loadLoop_ok_errors _ _ _ _ h
    dsimp only at herr
    subst herr
    rw [loadLoop] at h ⊢
    cases toLoad with
    | nil =>
      dsimp only at h ⊢
      rw [if_pos rfl] at h ⊢
      injection h with h
      subst h
      exact ⟨S', rfl, hS⟩
    | cons e rest =>
      obtain ⟨ns, path⟩ := e
      dsimp only at h ⊢
      cases h1 : E.fs.read (E.base.join (.rel path)) with
      | none =>
        rw [h1] at h
        have := loadLoop_ok_errors fuel _ _ _ h
        simp at this
      | some contents =>
        rw [h1] at h
        dsimp only at h
        cases h2 : tokenize T contents with
        | error es =>
          rw [h2] at h
          have := loadLoop_ok_errors fuel _ _ _ h
          simp at this
        | ok toks =>
          rw [h2] at h
          dsimp only at h
          cases h3 : parse T toks with
          | panic => rw [h3] at h; cases h
          | err es =>
            rw [h3] at h
            have := loadLoop_ok_errors fuel _ _ _ h
            simp at this
          | ok schema =>
            rw [h3] at h
            dsimp only at h
            have hpa : Parses T E path contents schema := ⟨h1, toks, h2, h3⟩
            by_cases hpe : path = []
            · rw [FPath.parent, if_pos (by simpa [FPath.rel] using hpe)] at h; cases h
            rw [FPath.parent, if_neg (by simpa [FPath.rel] using hpe)] at h
            dsimp only [FPath.rel] at h
            cases h5 : loadImports T E path path.dropLast schema.imports ⟨rest, visited, []⟩ with
            | none => rw [h5] at h; cases h
            | some r =>
              obtain ⟨imports, f'⟩ := r
              rw [h5] at h
              dsimp only at h
              have hm := insertLoaded_none_mem (ns := ns) (v := LoadedFile.mk { schema with imports := imports } path contents) (S := S)
              cases h6 : insertLoaded ns (LoadedFile.mk { schema with imports := imports } path contents) S with
              | mk S1 old =>
                rw [h6] at h hm
                cases old with
                | some o =>
                  have := loadLoop_ok_errors fuel _ _ _ h
                  simp at this
                | none =>
                  dsimp only at h
                  have hin := loadLoop_ok_mem fuel _ _ _ h _ (hm rfl _ (.inl rfl))
                  obtain ⟨c', s', ⟨k1, toks', k2, k3⟩, himp⟩ := H _ hin contents schema hpa
                  dsimp only at k1
                  rw [k1]
                  dsimp only
                  rw [k2]
                  dsimp only
                  rw [k3]
                  dsimp only
                  rw [FPath.parent, if_neg (by simpa [FPath.rel] using hpe)]
                  dsimp only [FPath.rel]
                  have hfe := loadLoop_ok_errors fuel _ _ _ h
                  obtain ⟨js', hjs⟩ := loadImports_same hb hcb hcan himp h5 hfe
                  rw [hjs]
                  dsimp only
                  obtain ⟨m1, m2⟩ := insertLoaded_same (ns := ns) (v := LoadedFile.mk { schema with imports := imports } path contents)
                    (v' := LoadedFile.mk { s' with imports := js' } path c') rfl hS
                  rw [h6] at m1 m2
                  have m2 := m2 rfl
                  generalize insertLoaded ns (LoadedFile.mk { s' with imports := js' } path c') S' = r at m1 m2 ⊢
                  obtain ⟨S2, old⟩ := r
                  dsimp only at m1 m2
                  subst m2
                  exact loadLoop_same hb hcb hcan H fuel f' S1 S2 m1 h

theorem format_resolved {T : CharTable} {F : Nat → Str → Str} {E : LoadEnv} {p : List Str} {s s' : Schema}
    (h : ResolvedSchema T E p s s') : format T F s' = format T F s := by
  have h1 : ∀ {is is' : List (Identifier × Import)}, Each (fun i i' => i'.1 = i.1 ∧ ∃ q ns, ImportDenotes E p i.2 q ∧
      pathToNamespace T q = some ns ∧ i'.2 = { i.2 with namespace_ := some ns }) is is' →
      is'.flatMap (fun i => writeImport T i.1 i.2) = is.flatMap (fun i => writeImport T i.1 i.2) := by
    intro is is' hE
    induction hE with
    | nil => rfl
    | cons h0 _ ih =>
      obtain ⟨k1, q, ns, -, -, k2⟩ := h0
      rw [List.flatMap_cons, List.flatMap_cons, ih, k1, k2]
      rfl
  unfold format
  rw [h.comment, h.declarations, h1 h.imports, each_isEmpty h.imports]

theorem afterWrites_canonicalize (ws : List (FPath × Str)) : ∀ fs : FileSystem, (fs.afterWrites ws).canonicalize = fs.canonicalize := by
  induction ws with
  | nil => intro _; rfl
  | cons w ws ih => intro fs; exact ih _

/-- If all writes to the file `c` write the text `t`, it has the text `t` afterwards if there was a write or it had this text
before. -/
theorem afterWrites_contents {c : List Str} {t : Str} : ∀ (ws : List (FPath × Str)) (fs : FileSystem),
    (∀ w ∈ ws, fs.canonicalize w.1 = some c → w.2 = t) →
    (fs.contents c = some t ∨ ∃ w ∈ ws, fs.canonicalize w.1 = some c) → (fs.afterWrites ws).contents c = some t
  | [], fs, _, h => by
    rcases h with h | ⟨w, hw, _⟩
    · exact h
    · cases hw
  | w :: ws, fs, hall, h => by
    rw [FileSystem.afterWrites]
    refine afterWrites_contents ws _ (fun w' hw' => hall w' (by simp [hw'])) ?_
    by_cases hc : fs.canonicalize w.1 = some c
    · left
      simp only [FileSystem.afterWrite]
      rw [if_pos hc, hall w (by simp) hc]
    · rcases h with h | ⟨w', hw', hcw⟩
      · left
        simp only [FileSystem.afterWrite]
        rw [if_neg hc, h]
      · right
        rcases List.mem_cons.mp hw' with rfl | hw'
        · exact absurd hcw hc
        · exact ⟨w', hw', hcw⟩

/-- **C42 (formatting, then checking).** If `format` succeeds, then `format --check` succeeds on the resulting files, and another
`format` writes nothing. Conditions (as for C37): no name becomes a reserved word, and filling a filled comment changes nothing. -/
theorem C42_then_check {T : CharTable} (hT : T.Ascii) (hS : T.SpaceApart) {F : Nat → Str → Str} {fs : FileSystem} {fuel : Nat}
    {can can' : FPath → Bool} {path : FPath} {S : List (Namespace × LoadedFile)} (h : loadSchemas T fs fuel path = .ok S)
    (hok : (formatSchema T F fs fuel can path false).1 = .success)
    (hn : ∀ e ∈ S, NamesOk T (SnakeOk T) (PascalStable T) e.2.schema) (hc : ∀ e ∈ S, CommentsOk (FillStable T F) e.2.schema) :
    let fs' := fs.afterWrites (formatSchema T F fs fuel can path false).2
    (formatSchema T F fs' fuel can' path true).1 = .success ∧ (formatSchema T F fs' fuel can' path false).2 = [] := by
  obtain ⟨E, name, hE, hparent, hfs⟩ := load_parent h
  obtain ⟨E0, name0, hE0, hload⟩ := C40_loaded h
  rw [hE] at hE0
  injection hE0 with hE0; injection hE0 with e1 e2
  subst e1; subst e2
  obtain ⟨w1, w2⟩ := C42_writes (F := F) (can := can) h hparent
  have w2 := w2 hok
  generalize hws : (formatSchema T F fs fuel can path false).2 = ws at *
  intro fs'
  have hcan : fs'.canonicalize = fs.canonicalize := afterWrites_canonicalize ws fs
  -- the environment of the second run
  let E' : LoadEnv := ⟨fs', E.base, E.canonicalBase⟩
  have hE' : loadEnv fs' path = some (E', name) := by
    unfold loadEnv at hE ⊢
    rw [hparent] at hE ⊢
    dsimp only at hE ⊢
    rw [hcan]
    split at hE
    · cases hE
    · split at hE
      · cases hE
      · injection hE with hE; injection hE with k1 k2
        subst k2
        have : E'.canonicalBase = E.canonicalBase := rfl
        rw [← k1] at this
        simp only at this
        show some ((⟨fs', E.base, _⟩ : LoadEnv), _) = some (E', _)
        rw [← this]
  -- schemas before and after `resolve`
  have hres : ∀ e ∈ S, ∃ s, Parses T E e.2.path e.2.contents s ∧ ResolvedSchema T E e.2.path s e.2.schema :=
    fun e he => (hload.sound e he).2.2
  -- the new text of each file
  have hnew : ∀ e ∈ S, ∀ s, Parses T E e.2.path e.2.contents s →
      fs'.read (E.base.join (.rel e.2.path)) = some (format T F s) := by
    intro e he s hs
    have hrd := hs.1
    rw [hfs, FileSystem.read] at hrd
    cases hcc : fs.canonicalize (E.base.join (.rel e.2.path)) with
    | none => rw [hcc] at hrd; cases hrd
    | some c =>
      rw [hcc] at hrd
      have hrd : fs.contents c = some e.2.contents := hrd
      rw [FileSystem.read, hcan, hcc]
      show fs'.contents c = some (format T F s)
      have huniq : ∀ e' ∈ S, fs.canonicalize (E.base.join (.rel e'.2.path)) = some c →
          format T F e'.2.schema = format T F s := by
        intro e' he' hc'
        obtain ⟨s', hs', hr'⟩ := hres e' he'
        have hrd' := hs'.1
        rw [hfs, FileSystem.read, hc'] at hrd'
        have hrd' : fs.contents c = some e'.2.contents := hrd'
        rw [hrd] at hrd'
        injection hrd' with hrd'
        obtain ⟨-, toks, t1, t2⟩ := hs
        obtain ⟨-, toks', t1', t2'⟩ := hs'
        rw [← hrd', t1] at t1'
        injection t1' with t1'
        subst t1'
        rw [t2] at t2'
        injection t2' with t2'
        subst t2'
        exact format_resolved hr'
      refine afterWrites_contents ws fs ?_ ?_
      · intro w hw hwc
        obtain ⟨e', he', -, rfl⟩ := w1 w hw
        exact huniq e' he' hwc
      · by_cases heq : e.2.contents = format T F e.2.schema
        · left
          rw [hrd, heq, huniq e he hcc]
        · right
          exact ⟨_, w2 e he heq, hcc⟩
  -- parsing the new text
  have hback : ∀ e ∈ S, ∀ s, Parses T E e.2.path e.2.contents s → ∃ s', Parses T E' e.2.path (format T F s) s' ∧
      Each SameImport s.imports s'.imports ∧ format T F s' = format T F s := by
    intro e he s hs
    obtain ⟨hrd, toks, t1, t2⟩ := hs
    obtain ⟨s0, hs0, hr0⟩ := hres e he
    obtain ⟨-, rfl⟩ := parses_unique ⟨hrd, toks, t1, t2⟩ hs0
    have himpN : ∀ {is is' : List (Identifier × Import)}, Each (fun i i' => i'.1 = i.1 ∧ ∃ q ns, ImportDenotes E e.2.path i.2 q ∧
        pathToNamespace T q = some ns ∧ i'.2 = { i.2 with namespace_ := some ns }) is is' →
        (∀ i ∈ is', NamedAfterFile T i.1 i.2.path ∨ SnakeOk T i.1) →
        ∀ i ∈ is, NamedAfterFile T i.1 i.2.path ∨ SnakeOk T i.1 := by
      intro is is' hE
      induction hE with
      | nil => intro _; simp
      | cons h0 _ ih =>
        intro hall i hi
        rcases List.mem_cons.mp hi with rfl | hi
        · have := hall _ (List.mem_cons_self ..)
          obtain ⟨k1, q, ns, -, -, k2⟩ := h0
          rw [k1, k2] at this
          exact this
        · exact ih (fun i hi => hall i (List.mem_cons_of_mem _ hi)) i hi
    have hns : NamesOk T (SnakeOk T) (PascalStable T) s := by
      have := hn e he
      refine ⟨himpN hr0.imports this.imports, ?_, ?_⟩
      · have := this.declarations; rw [hr0.declarations] at this; exact this
      · have := this.fields; rw [hr0.declarations] at this; exact this
    have hcs : CommentsOk (FillStable T F) s := by
      have := hc e he
      refine ⟨?_, ?_, ?_⟩
      · have := this.schema; rw [hr0.comment] at this; exact this
      · have := this.declarations; rw [hr0.declarations] at this; exact this
      · have := this.fields; rw [hr0.declarations] at this; exact this
    have hf := parsed_formattable (F := F) hT hS t1 t2 (namesOk_mono (N' := SnakePlain T) (M' := PascalPlain T) (fun _ h => h.1)
      (fun _ h => h.1) hns) ⟨fun p hp => (hcs.schema p hp).1, fun d hd p hp => (hcs.declarations d hd p hp).1,
        fun d hd f hf p hp => (hcs.fields d hd f hf p hp).1⟩
    obtain ⟨toks', s', g1, g2, g3⟩ := format_parses hT hS hf (fun i hi => (hns.imports i hi).imp id (fun h => h.2))
    obtain ⟨toks2, s2, g1', g2', g4⟩ := C37_idempotent hT hS F e.2.contents toks s t1 t2 hns hcs
    rw [g1] at g1'
    injection g1' with g1'
    subst g1'
    rw [g2] at g2'
    injection g2' with g2'
    subst g2'
    refine ⟨s', ⟨hnew e he s ⟨hrd, toks, t1, t2⟩, toks', g1, g2⟩, ?_, g4⟩
    refine each_imp g3.imports ?_
    intro i hi i' hb
    have := importBack_name hb ((hns.imports i hi).imp id (fun h => h.2))
    exact ⟨by simp [SameName, Identifier.same, this], hb.1⟩
  -- the second run
  have hrun : ∃ S', loadSchemas T fs' fuel path = .ok S' ∧ Each (fun e e' => e'.1 = e.1 ∧ e'.2.path = e.2.path) S S' := by
    unfold loadSchemas at h ⊢
    rw [hE] at h
    rw [hE']
    dsimp only at h ⊢
    cases hns : pathToNamespace T [name] with
    | none => rw [hns] at h; cases h
    | some ns =>
      rw [hns] at h
      dsimp only at h ⊢
      exact loadLoop_same (E := E) (E' := E') rfl rfl (by rw [hfs]; exact hcan)
        (fun e he c s hs => by
          obtain ⟨s0, hs0, -⟩ := hres e he
          obtain ⟨rfl, rfl⟩ := parses_unique hs hs0
          obtain ⟨s', k1, k2, -⟩ := hback e he _ hs
          exact ⟨_, s', k1, k2⟩) fuel _ [] [] .nil h
  obtain ⟨S', hS', hsame⟩ := hrun
  have hclean : ∀ e' ∈ S', e'.2.contents = format T F e'.2.schema := by
    intro e' he'
    obtain ⟨e, he, -, hpath⟩ := each_mem_right hsame e' he'
    obtain ⟨s0, hs0, -⟩ := hres e he
    obtain ⟨s', k1, -, k3⟩ := hback e he s0 hs0
    obtain ⟨E2, name2, hE2, hload2⟩ := C40_loaded hS'
    rw [hE'] at hE2
    injection hE2 with hE2; injection hE2 with e1 e2
    subst e1; subst e2
    obtain ⟨-, -, s2, k4, k5⟩ := hload2.sound e' he'
    rw [hpath] at k4
    obtain ⟨k6, rfl⟩ := parses_unique k1 k4
    rw [← k6, format_resolved k5, k3]
  refine ⟨C42_check.2.mpr ⟨S', hS', hclean⟩, ?_⟩
  rw [List.eq_nil_iff_forall_not_mem]
  intro w hw
  obtain ⟨e', he', hne, -⟩ := (C42_writes (F := F) (can := can') hS' hparent).1 w hw
  exact hne (hclean e' he')

/-! ## `generate` -/

theorem writeOutput_effects {can : Effect → Bool} {path : FPath} {text : Str} :
    (∀ e ∈ (writeOutput can path text).2, e = .write path text ∨ ∃ d, path.parent = some d ∧ e = .createDir d) ∧
    ((writeOutput can path text).1 = true → .write path text ∈ (writeOutput can path text).2) := by
  unfold writeOutput
  dsimp only
  generalize hdirs : parentDir path = dirs
  have hdir : ∀ e ∈ dirs, ∃ d, path.parent = some d ∧ e = .createDir d := by
    intro e he
    rw [← hdirs, parentDir] at he
    split at he
    · cases he
    · rename_i d hd
      simp only [List.mem_singleton] at he
      exact ⟨d, hd, he⟩
  split
  · split
    · refine ⟨fun e he => ?_, fun _ => List.mem_append_right _ (List.mem_singleton.mpr rfl)⟩
      rcases List.mem_append.mp he with he | he
      · exact .inr (hdir e he)
      · simp only [List.mem_singleton] at he
        exact .inl he
    · exact ⟨fun e he => .inr (hdir e he), fun h => by cases h⟩
  · exact ⟨by simp, fun h => by cases h⟩

theorem writeRequested_effects {can : Effect → Bool} {path : Option FPath} {text : Str} :
    (∀ e ∈ (writeRequested can path text).2, ∃ p, path = some p ∧
      (e = .write p text ∨ ∃ d, p.parent = some d ∧ e = .createDir d)) ∧
    ((writeRequested can path text).1 = true → ∀ p, path = some p → .write p text ∈ (writeRequested can path text).2) := by
  unfold writeRequested
  cases path with
  | none => simp
  | some p =>
    obtain ⟨h1, h2⟩ := writeOutput_effects (can := can) (path := p) (text := text)
    exact ⟨fun e he => ⟨p, rfl, h1 e he⟩, fun h q hq => by injection hq with hq; subst hq; exact h2 h⟩

theorem listSchemas_effects {path : FPath} {list : Bool} {S : List (Namespace × LoadedFile)} {l : List Effect}
    (h : listSchemas path list S = some l) : ∀ e ∈ l, ∃ p, e = .list p := by
  unfold listSchemas at h
  split at h
  · split at h
    · cases h
    · injection h with h
      subst h
      intro e he
      obtain ⟨x, -, rfl⟩ := List.mem_map.mp he
      exact ⟨_, rfl⟩
  · injection h with h
    subst h
    simp

/-- **C44.** Unless all files load and are valid, `generate` has no effect at all and does not succeed. -/
theorem C44_nothing_unless_valid {T : CharTable} {rustText tsText : Schemas → Str} {fs : FileSystem} {fuel : Nat}
    {can : Effect → Bool} {path : FPath} {list : Bool} {rust ts : Option FPath}
    (h : ∀ S, loadSchemas T fs fuel path = .ok S → ¬ Schemas.WellFormed (S.map (fun e => (e.1, e.2.schema)))) :
    (generateCode T rustText tsText fs fuel can path list rust ts).2 = [] ∧
    (generateCode T rustText tsText fs fuel can path list rust ts).1 ≠ .success := by
  unfold generateCode
  cases hl : loadSchemas T fs fuel path with
  | panic => simp
  | running => simp
  | err es => simp
  | ok S =>
    dsimp only
    have hn := h S hl
    rw [← C28_accepts_exactly_well_formed _ (C40_establishes_loaded hl)] at hn
    split
    · simp
    · simp
    · rename_i hv; exact absurd hv hn

/-- **C44 (effects).** The only files and directories written are the requested outputs and their directories, and
the text is the generated code for the loaded schemas. -/
theorem C44_only_outputs {T : CharTable} {rustText tsText : Schemas → Str} {fs : FileSystem} {fuel : Nat}
    {can : Effect → Bool} {path : FPath} {list : Bool} {rust ts : Option FPath} {S : List (Namespace × LoadedFile)}
    (hl : loadSchemas T fs fuel path = .ok S) :
    ∀ e ∈ (generateCode T rustText tsText fs fuel can path list rust ts).2, (∃ p, e = .list p) ∨
      (∃ p, rust = some p ∧ (e = .write p (rustText (S.map (fun e => (e.1, e.2.schema)))) ∨ ∃ d, p.parent = some d ∧ e = .createDir d)) ∨
      (∃ p, ts = some p ∧ (e = .write p (tsText (S.map (fun e => (e.1, e.2.schema)))) ∨ ∃ d, p.parent = some d ∧ e = .createDir d)) := by
  unfold generateCode
  rw [hl]
  dsimp only
  have hr := (writeRequested_effects (can := can) (path := rust) (text := rustText (S.map (fun e => (e.1, e.2.schema))))).1
  have ht := (writeRequested_effects (can := can) (path := ts) (text := tsText (S.map (fun e => (e.1, e.2.schema))))).1
  split
  · simp
  · simp
  · split
    · simp
    · rename_i listed hlist
      have hli := listSchemas_effects hlist
      split
      · rename_i effects he
        rw [he] at hr
        intro e hm
        rcases List.mem_append.mp hm with hm | hm
        · exact .inl (hli e hm)
        · exact .inr (.inl (hr e hm))
      · rename_i effects he
        rw [he] at hr
        split
        · rename_i effects' he'
          rw [he'] at ht
          intro e hm
          rcases List.mem_append.mp hm with hm | hm
          · rcases List.mem_append.mp hm with hm | hm
            · exact .inl (hli e hm)
            · exact .inr (.inl (hr e hm))
          · exact .inr (.inr (ht e hm))
        · rename_i effects' he'
          rw [he'] at ht
          intro e hm
          rcases List.mem_append.mp hm with hm | hm
          · rcases List.mem_append.mp hm with hm | hm
            · exact .inl (hli e hm)
            · exact .inr (.inl (hr e hm))
          · exact .inr (.inr (ht e hm))

/-- **C44 (success).** If `generate` succeeds, all files loaded and are valid, and all requested outputs were written. -/
theorem C44_success {T : CharTable} {rustText tsText : Schemas → Str} {fs : FileSystem} {fuel : Nat}
    {can : Effect → Bool} {path : FPath} {list : Bool} {rust ts : Option FPath}
    (hs : (generateCode T rustText tsText fs fuel can path list rust ts).1 = .success) :
    ∃ S, loadSchemas T fs fuel path = .ok S ∧ Schemas.WellFormed (S.map (fun e => (e.1, e.2.schema))) ∧
      (∀ p, rust = some p → .write p (rustText (S.map (fun e => (e.1, e.2.schema)))) ∈
        (generateCode T rustText tsText fs fuel can path list rust ts).2) ∧
      (∀ p, ts = some p → .write p (tsText (S.map (fun e => (e.1, e.2.schema)))) ∈
        (generateCode T rustText tsText fs fuel can path list rust ts).2) := by
  unfold generateCode at hs ⊢
  cases hl : loadSchemas T fs fuel path with
  | panic => rw [hl] at hs; cases hs
  | running => rw [hl] at hs; cases hs
  | err es => rw [hl] at hs; cases hs
  | ok S =>
    rw [hl] at hs
    dsimp only at hs ⊢
    have hr := (writeRequested_effects (can := can) (path := rust) (text := rustText (S.map (fun e => (e.1, e.2.schema))))).2
    have ht := (writeRequested_effects (can := can) (path := ts) (text := tsText (S.map (fun e => (e.1, e.2.schema))))).2
    refine ⟨S, rfl, ?_⟩
    cases hv : validate (S.map (fun e => (e.1, e.2.schema))) with
    | error _ => rw [hv] at hs; cases hs
    | ok es =>
      cases es with
      | cons _ _ => rw [hv] at hs; cases hs
      | nil =>
        refine ⟨(C28_accepts_exactly_well_formed _ (C40_establishes_loaded hl)).mp hv, ?_⟩
        rw [hv] at hs
        dsimp only at hs ⊢
        cases hlist : listSchemas path list S with
        | none => rw [hlist] at hs; cases hs
        | some listed =>
          rw [hlist] at hs
          dsimp only at hs ⊢
          cases hr1 : writeRequested can rust (rustText (S.map (fun e => (e.1, e.2.schema)))) with
          | mk b effects =>
            rw [hr1] at hs hr
            cases b with
            | false => cases hs
            | true =>
              dsimp only at hs ⊢
              cases ht1 : writeRequested can ts (tsText (S.map (fun e => (e.1, e.2.schema)))) with
              | mk b effects' =>
                rw [ht1] at hs ht
                cases b with
                | false => cases hs
                | true =>
                  exact ⟨fun p hp => List.mem_append_left _ (List.mem_append_right _ (hr rfl p hp)),
                    fun p hp => List.mem_append_right _ (ht rfl p hp)⟩

/-- The effects of one output are the planned ones up to the first which fails. -/
theorem writeRequested_run (can : Effect → Bool) (path : Option FPath) (text : Str) :
    writeRequested can path text =
      ((plannedOutput path text).all (Effect.succeeds can), (plannedOutput path text).takeWhile (Effect.succeeds can)) := by
  cases path with
  | none => rfl
  | some p =>
    rw [writeRequested, writeOutput, plannedOutput, parentDir]
    cases p.parent with
    | none =>
      dsimp only
      by_cases h : can (.write p text) = true
      · simp [h, Effect.succeeds]
      · simp [h, Effect.succeeds]
    | some d =>
      dsimp only
      by_cases h1 : can (.createDir d) = true
      · by_cases h : can (.write p text) = true
        · simp [h, h1, Effect.succeeds]
        · simp [h, h1, Effect.succeeds]
      · simp [h1, Effect.succeeds]

/-- **C44 (run).** If all files load and are valid, `generate` does what is planned (it lists all the loaded files, in the order of
their namespaces, if this is requested; then it creates the directory of the Rust output and writes this output; then the same for
TypeScript) up to the first effect which fails, and it succeeds exactly if none fails. -/
theorem C44_run {T : CharTable} {rustText tsText : Schemas → Str} {fs : FileSystem} {fuel : Nat}
    {can : Effect → Bool} {path : FPath} {list : Bool} {rust ts : Option FPath} {S : List (Namespace × LoadedFile)}
    (hl : loadSchemas T fs fuel path = .ok S) (hw : Schemas.WellFormed (S.map (fun e => (e.1, e.2.schema))))
    {dir : FPath} (hd : path.parent = some dir) :
    let schemas := S.map (fun e => (e.1, e.2.schema))
    let planned := plannedEffects dir (S.map (fun e => e.2.path)) list rust ts (rustText schemas) (tsText schemas)
    generateCode T rustText tsText fs fuel can path list rust ts =
      (if planned.all (Effect.succeeds can) then .success else .failure, planned.takeWhile (Effect.succeeds can)) := by
  intro schemas planned
  have hv : validate schemas = .ok [] := (C28_accepts_exactly_well_formed _ (C40_establishes_loaded hl)).mpr hw
  have hlist : listSchemas path list S =
      some (if list then (S.map (fun e => e.2.path)).map (fun p => .list ⟨dir.absolute, dir.parts ++ p⟩) else []) := by
    rw [listSchemas, hd]
    cases list with
    | false => rfl
    | true => simp [FPath.join, FPath.rel, Function.comp_def]
  generalize hL : (if list then (S.map (fun e => e.2.path)).map (fun p => Effect.list ⟨dir.absolute, dir.parts ++ p⟩) else []) = L at hlist
  have hLs : L.all (Effect.succeeds can) = true := by
    rw [← hL]
    cases list with
    | false => rfl
    | true => simp [Effect.succeeds]
  have hLt : ∀ l, (L ++ l).takeWhile (Effect.succeeds can) = L ++ l.takeWhile (Effect.succeeds can) := by
    intro l
    exact List.takeWhile_append_of_pos (fun e he => List.all_eq_true.mp hLs e he)
  have happ : ∀ l l' : List Effect, (l ++ l').takeWhile (Effect.succeeds can) =
      if l.all (Effect.succeeds can) then l ++ l'.takeWhile (Effect.succeeds can) else l.takeWhile (Effect.succeeds can) := by
    intro l l'
    induction l with
    | nil => simp
    | cons a l ih =>
      by_cases ha : Effect.succeeds can a = true
      · rw [List.cons_append, List.takeWhile_cons, if_pos ha, ih, List.all_cons, ha, Bool.true_and, List.takeWhile_cons, if_pos ha]
        split <;> rfl
      · rw [List.cons_append, List.takeWhile_cons, if_neg ha, List.all_cons, List.takeWhile_cons, if_neg ha]
        simp [ha]
  have hp : planned = L ++ (plannedOutput rust (rustText schemas) ++ plannedOutput ts (tsText schemas)) := by
    rw [← hL, ← List.append_assoc]; rfl
  rw [hp, hLt, happ, List.all_append, hLs, Bool.true_and, List.all_append]
  have hself : ∀ l : List Effect, l.all (Effect.succeeds can) = true → l.takeWhile (Effect.succeeds can) = l := by
    intro l h
    simpa using List.takeWhile_append_of_pos (l₂ := []) (fun e he => List.all_eq_true.mp h e he)
  unfold generateCode
  rw [hl]
  dsimp only
  change (match validate schemas with
    | .error _ => (Outcome.panic, [])
    | .ok (_ :: _) => (.failure, [])
    | .ok [] => _) = _
  rw [hv]
  dsimp only
  rw [hlist]
  dsimp only
  rw [writeRequested_run, writeRequested_run]
  cases h1 : (plannedOutput rust (rustText schemas)).all (Effect.succeeds can) with
  | false => simp [schemas]
  | true =>
    cases h2 : (plannedOutput ts (tsText schemas)).all (Effect.succeeds can) with
    | false => simp [schemas, h2, hself _ h1]
    | true => simp [schemas, h2, hself _ h1, hself _ h2]

/-- **C44 (panics).** `generate` panics only if loading does (see C35 and C40). -/
theorem C44_panics {T : CharTable} {rustText tsText : Schemas → Str} {fs : FileSystem} {fuel : Nat}
    {can : Effect → Bool} {path : FPath} {list : Bool} {rust ts : Option FPath}
    (hs : (generateCode T rustText tsText fs fuel can path list rust ts).1 = .panic) : loadSchemas T fs fuel path = .panic := by
  unfold generateCode at hs
  cases hl : loadSchemas T fs fuel path with
  | panic => rfl
  | running => rw [hl] at hs; cases hs
  | err es => rw [hl] at hs; cases hs
  | ok S =>
    exfalso
    rw [hl] at hs
    dsimp only at hs
    obtain ⟨errors, hv⟩ := C28_returns _ (C40_establishes_loaded hl)
    obtain ⟨E, name, -, hp, -⟩ := load_parent hl
    have hlist : ∃ l, listSchemas path list S = some l := by
      unfold listSchemas
      rw [hp]
      split <;> exact ⟨_, rfl⟩
    obtain ⟨l, hlist⟩ := hlist
    rw [hv] at hs
    cases errors with
    | cons _ _ => cases hs
    | nil =>
      dsimp only at hs
      rw [hlist] at hs
      dsimp only at hs
      split at hs
      · cases hs
      · split at hs <;> cases hs

/-! ## Concrete cases -/

def untidyFs : FileSystem := simpleFs
  [(strs ["p", "a.t"], "import 'sub/b.t'\nstruct foo { x: b.bar = 0 }\n".toList),
    (strs ["p", "sub", "b.t"], "struct Bar {\n    y: U64 = 0\n}\n".toList)] []

/-- Formatting writes the one file which is not formatted yet; the check fails before and succeeds afterwards. -/
example :
    formatSchema asciiTable keepLines untidyFs 4 (fun _ => true) (FPath.ofStr "p/a.t".toList) true = (.failure, []) ∧
    formatSchema asciiTable keepLines untidyFs 4 (fun _ => true) (FPath.ofStr "p/a.t".toList) false =
      (.success, [(FPath.ofStr "p/a.t".toList, "import 'sub/b.t'\n\nstruct Foo {\n    x: b.Bar = 0\n}\n".toList)]) ∧
    formatSchema asciiTable keepLines
      (untidyFs.afterWrites [(FPath.ofStr "p/a.t".toList, "import 'sub/b.t'\n\nstruct Foo {\n    x: b.Bar = 0\n}\n".toList)])
      4 (fun _ => true) (FPath.ofStr "p/a.t".toList) true = (.success, []) := by
  decide +kernel

/-- The conditions of C42_then_check hold of it. -/
example : ∃ S, loadSchemas asciiTable untidyFs 4 (FPath.ofStr "p/a.t".toList) = .ok S ∧
    (∀ e ∈ S, NamesOk asciiTable (SnakeOk asciiTable) (PascalStable asciiTable) e.2.schema) ∧
    (∀ e ∈ S, CommentsOk (FillStable asciiTable keepLines) e.2.schema) := by
  have h : (match loadSchemas asciiTable untidyFs 4 (FPath.ofStr "p/a.t".toList) with
    | .ok S => S.all (fun e => namesCheck asciiTable e.2.schema && commentsCheck asciiTable e.2.schema)
    | _ => false) = true := by decide +kernel
  cases hl : loadSchemas asciiTable untidyFs 4 (FPath.ofStr "p/a.t".toList) with
  | ok S =>
    rw [hl] at h
    simp only [List.all_eq_true, Bool.and_eq_true] at h
    refine ⟨S, rfl, fun e he => namesOk_mono (fun _ h => h) (fun _ h => h.2) (namesCheck_ok (h e he).1), fun e he => ?_⟩
    have := commentsCheck_ok (h e he).2
    exact ⟨fun p hp => fillKeeps_stable (this.schema p hp), fun d hd p hp => fillKeeps_stable (this.declarations d hd p hp),
      fun d hd f hf p hp => fillKeeps_stable (this.fields d hd f hf p hp)⟩
  | _ => rw [hl] at h; cases h

/-- Both outputs are written for a valid schema; nothing for an invalid one. -/
example :
    generateCode asciiTable (fun _ => "rust".toList) (fun _ => "ts".toList) untidyFs 4 (fun _ => true) (FPath.ofStr "p/a.t".toList)
      true (some (FPath.ofStr "out/a.rs".toList)) (some (FPath.ofStr "a.ts".toList)) =
    (.success, [.list (FPath.ofStr "p/a.t".toList), .list (FPath.ofStr "p/sub/b.t".toList), .createDir (FPath.ofStr "out".toList),
      .write (FPath.ofStr "out/a.rs".toList) "rust".toList, .createDir (FPath.ofStr [])
      , .write (FPath.ofStr "a.ts".toList) "ts".toList]) ∧
    generateCode asciiTable (fun _ => "rust".toList) (fun _ => "ts".toList)
      (simpleFs [(strs ["a.t"], "struct Foo {\n    x: Bar = 0\n}\n".toList)] []) 4 (fun _ => true) (FPath.ofStr "a.t".toList)
      true (some (FPath.ofStr "out/a.rs".toList)) (some (FPath.ofStr "a.ts".toList)) = (.failure, []) := by
  decide +kernel

end Typical
