import Verif.Front.LoadErrorLemmas
import Verif.Props.Loader

/-!
# Property C60: the loader reports exactly the problems of the reachable files

`FileProblem` lists what can be wrong with a file, seen on its own: `Verif.Spec.Loader`.
-/

namespace Typical

theorem errInv_start {T : CharTable} {E : LoadEnv} {name : Str} {ns : Namespace} (h : pathToNamespace T [name] = some ns) :
    ErrInv T E [name] ⟨[(ns, [name])], [ns.key], []⟩ [] := by
  refine ⟨?_, by simp, by simp, by simp, by simp, .inl ⟨_, List.mem_singleton.mpr rfl, rfl⟩⟩
  intro e he
  rw [List.mem_singleton] at he
  subst he
  exact ⟨.root, h⟩

theorem loadSchemas_errors {T : CharTable} {fs : FileSystem} {fuel : Nat} {path : FPath} {E : LoadEnv} {name : Str}
    (hE : loadEnv fs path = some (E, name)) {errors : List LoadErr} (h : loadSchemas T fs fuel path = .err errors) :
    (∀ p q, LoadErr.conflict p q ∉ errors) ∧ ∃ done v, ErrInv T E [name] ⟨[], v, errors⟩ done := by
  have hl := h
  unfold loadSchemas at h
  rw [hE] at h
  dsimp only at h
  cases hn : pathToNamespace T [name] with
  | none => rw [hn] at h; cases h
  | some ns =>
    rw [hn] at h
    have := loadSchemas_spec (fuel := fuel) hE hn
    rw [hl] at this
    exact ⟨this.1, loadLoop_errors fuel _ [] [] (errInv_start hn) _ h⟩

/-- **C60 (nothing spurious).** Each reported error is a problem of a file which can be reached by imports. -/
theorem C60_sound {T : CharTable} {fs : FileSystem} {fuel : Nat} {path : FPath} {E : LoadEnv} {name : Str}
    (hE : loadEnv fs path = some (E, name)) {errors : List LoadErr} (h : loadSchemas T fs fuel path = .err errors) :
    ∀ e ∈ errors, ∃ p, ReachableFile T E [name] p ∧ FileProblem T E p e := by
  obtain ⟨hc, done, v, inv⟩ := loadSchemas_errors hE h
  intro e he
  have hn : NotConflict e := by
    rintro p q rfl
    exact hc p q he
  obtain ⟨p, hp, hf⟩ := (inv.errors e hn).mp he
  exact ⟨p, (inv.processed p hp).1, hf⟩

/-- **C60 (nothing missing).** If no two reachable files have the same namespace, each problem of each reachable file is reported: the
errors are exactly these problems. -/
theorem C60_errors_exact {T : CharTable} {fs : FileSystem} {fuel : Nat} {path : FPath} {E : LoadEnv} {name : Str}
    (hE : loadEnv fs path = some (E, name)) {errors : List LoadErr} (h : loadSchemas T fs fuel path = .err errors)
    (hd : ∀ p q n m, ReachableFile T E [name] p → ReachableFile T E [name] q → pathToNamespace T p = some n →
      pathToNamespace T q = some m → n.key = m.key → p = q) (e : LoadErr) :
    e ∈ errors ↔ ∃ p, ReachableFile T E [name] p ∧ FileProblem T E p e := by
  refine ⟨C60_sound hE h e, ?_⟩
  rintro ⟨p, hp, hf⟩
  obtain ⟨hc, done, v, inv⟩ := loadSchemas_errors hE h
  have hn : NotConflict e := by
    rintro p q rfl
    cases hf
  exact (inv.errors e hn).mpr ⟨p, errInv_all inv hd p hp, hf⟩

/-- **C60 (not a file).** The only other failure is that the given path has no directory or no file name, or denotes nothing. -/
theorem C60_not_a_file {T : CharTable} {fs : FileSystem} {fuel : Nat} {path : FPath} :
    loadSchemas T fs fuel path = .err [.notAFile] ↔
      path.parent = none ∨ path.fileName = none ∨ fs.canonicalize path = none ∨ fs.canonicalize path = some [] := by
  have hcan : (fs.canonicalize path).bind (fun c => (FPath.mk true c).parent) = none ↔
      fs.canonicalize path = none ∨ fs.canonicalize path = some [] := by
    cases h : fs.canonicalize path with
    | none => simp
    | some c => cases c <;> simp [FPath.parent]
  have henv : loadEnv fs path = none ↔
      path.parent = none ∨ path.fileName = none ∨ fs.canonicalize path = none ∨ fs.canonicalize path = some [] := by
    rw [← hcan]
    unfold loadEnv
    cases path.parent with
    | none => simp
    | some b =>
      cases (fs.canonicalize path).bind (fun c => (FPath.mk true c).parent) with
      | none => simp
      | some c => cases path.fileName <;> simp
  rw [← henv]
  constructor
  · intro h
    cases hE : loadEnv fs path with
    | none => rfl
    | some r =>
      obtain ⟨E, name⟩ := r
      obtain ⟨p, -, hp⟩ := C60_sound hE h .notAFile (by simp)
      cases hp
  · intro h
    unfold loadSchemas
    rw [h]

/-! ### Examples -/

/-- A missing import, an import outside of the base directory, and (in another file) a syntax error. -/
def brokenFs : FileSystem := simpleFs
  [(strs ["p", "a.t"], "import 'b.t'\nimport 'missing.t'\nimport '../q/c.t'\n".toList), (strs ["p", "b.t"], "struct {\n".toList),
    (strs ["q", "c.t"], "".toList)] []

/-- Three errors, in both files. -/
example : (match loadSchemas asciiTable brokenFs 4 (FPath.ofStr "p/a.t".toList) with
    | .err es => es.map (fun
      | .unresolved p i => (p, i.path)
      | .outside p i _ => (p, i.path)
      | .syntactic p _ => (p, [])
      | _ => ([], []))
    | _ => []) = [(strs ["a.t"], "../q/c.t".toList), (strs ["a.t"], "missing.t".toList), (strs ["b.t"], [])] := by decide +kernel

example : ∃ E name, loadEnv brokenFs (FPath.ofStr "p/a.t".toList) = some (E, name) :=
  ⟨⟨brokenFs, FPath.ofStr "p".toList, strs ["p"]⟩, "a.t".toList, rfl⟩

/-- All imports of the files in the list lead to files in the list (or nowhere). -/
def importsWithin (T : CharTable) (E : LoadEnv) (files : List (List Str)) : Bool :=
  files.all (fun p =>
    match E.fs.read (E.base.join (.rel p)) with
    | none => true
    | some c =>
      match tokenize T c with
      | .error _ => true
      | .ok toks =>
        match parse T toks with
        | .ok s => s.imports.all (fun i =>
          match (E.fs.canonicalize (E.base.join ((FPath.rel p.dropLast).join (FPath.ofStr i.2.path)))).bind (stripPrefix E.canonicalBase) with
          | none => true
          | some q => files.contains q)
        | _ => true)

theorem reachable_within {T : CharTable} {E : LoadEnv} {files : List (List Str)} (h : importsWithin T E files = true) {root : List Str}
    (hr : root ∈ files) : ∀ p, ReachableFile T E root p → p ∈ files := by
  intro p hp
  induction hp with
  | root => exact hr
  | @step p c s i q _ hpa hi hden ih =>
    have := List.all_eq_true.mp h p ih
    obtain ⟨h1, toks, h2, h3⟩ := hpa
    rw [h1] at this
    dsimp only at this
    rw [h2] at this
    dsimp only at this
    rw [h3] at this
    dsimp only at this
    have := List.all_eq_true.mp this i hi
    rw [ImportDenotes] at hden
    rw [hden, Option.bind_some, stripPrefix_iff.mpr rfl] at this
    simpa using this

/-- Distinct namespaces among the files of a list. -/
def namespacesDistinct (T : CharTable) (files : List (List Str)) : Bool :=
  files.all (fun p => files.all (fun q =>
    p == q || (match pathToNamespace T p, pathToNamespace T q with
      | some n, some m => n.key != m.key
      | _, _ => true)))

theorem distinct_of_within {T : CharTable} {E : LoadEnv} {files : List (List Str)} (h : importsWithin T E files = true) {root : List Str}
    (hr : root ∈ files) (hn : namespacesDistinct T files = true) :
    ∀ p q n m, ReachableFile T E root p → ReachableFile T E root q → pathToNamespace T p = some n →
      pathToNamespace T q = some m → n.key = m.key → p = q := by
  intro p q n m hp hq h1 h2 he
  have := List.all_eq_true.mp (List.all_eq_true.mp hn p (reachable_within h hr p hp)) q (reachable_within h hr q hq)
  rw [h1, h2] at this
  simpa [he] using this

/-- The hypotheses of C60_errors_exact hold: two reachable files, with different namespaces. -/
example : ∀ p q n m, ReachableFile asciiTable ⟨brokenFs, FPath.ofStr "p".toList, strs ["p"]⟩ ["a.t".toList] p →
    ReachableFile asciiTable ⟨brokenFs, FPath.ofStr "p".toList, strs ["p"]⟩ ["a.t".toList] q → pathToNamespace asciiTable p = some n →
    pathToNamespace asciiTable q = some m → n.key = m.key → p = q :=
  distinct_of_within (files := [strs ["a.t"], strs ["b.t"]]) (by decide +kernel) (by decide) (by decide +kernel)

end Typical
