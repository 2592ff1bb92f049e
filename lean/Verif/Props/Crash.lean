import Verif.Props.SameCode

/-!
# Property C90: what a crash of `format` leaves behind
-/

namespace Typical

/-- The full statement: whatever a crash of `format` leaves behind, no schema is lost: each file has the text which it had, or its formatted text. It is false
(`C90_witness`). -/
def FormatLosesNothing (T : CharTable) (F : Nat → Str → Str) (fs : FileSystem) (fuel : Nat) (can : FPath → Bool) (path : FPath) : Prop :=
  ∀ S dir, loadSchemas T fs fuel path = .ok S → path.parent = some dir → ∀ fs', fs.Interrupted (formatSchema T F fs fuel can path false).2 fs' →
    ∀ e ∈ S, fs'.read (dir.join (.rel e.2.path)) = some e.2.contents ∨ fs'.read (dir.join (.rel e.2.path)) = some (format T F e.2.schema)

/-- The reads after writes. -/
theorem afterWrites_read {fs : FileSystem} {ws : List (FPath × Str)} {q : FPath} :
    (fs.afterWrites ws).read q = fs.read q ∨ ∃ w ∈ ws, (∃ c, fs.canonicalize q = some c ∧ fs.canonicalize w.1 = some c) ∧ (fs.afterWrites ws).read q = some w.2 := by
  rw [FileSystem.read, FileSystem.read, afterWrites_canonicalize]
  cases hc : fs.canonicalize q with
  | none => exact .inl rfl
  | some c =>
    show (fs.afterWrites ws).contents c = fs.contents c ∨ ∃ w ∈ ws, (∃ c', some c = some c' ∧ _) ∧ (fs.afterWrites ws).contents c = some w.2
    have key : ∀ (ws : List (FPath × Str)) (g : FileSystem), g.canonicalize = fs.canonicalize →
        (g.afterWrites ws).contents c = g.contents c ∨ ∃ w ∈ ws, fs.canonicalize w.1 = some c ∧ (g.afterWrites ws).contents c = some w.2 := by
      intro ws
      induction ws with
      | nil => intro g _; exact .inl rfl
      | cons w ws ih =>
        intro g hg
        rw [FileSystem.afterWrites]
        rcases ih (g.afterWrite w) hg with h | ⟨w', h1, h2, h3⟩
        · rw [h]
          simp only [FileSystem.afterWrite]
          split
          · rename_i hw
            rw [hg] at hw
            exact .inr ⟨w, by simp, hw, rfl⟩
          · exact .inl rfl
        · exact .inr ⟨w', by simp [h1], h2, h3⟩
    rcases key ws fs rfl with h | ⟨w, h1, h2, h3⟩
    · exact .inl h
    · exact .inr ⟨w, h1, ⟨c, rfl, h2⟩, h3⟩

/-- Each file of the plan, read after some of its writes. -/
theorem read_planned {T : CharTable} {F : Nat → Str → Str} {fs : FileSystem} {fuel : Nat} {path : FPath} {S : List (Namespace × LoadedFile)}
    (h : loadSchemas T fs fuel path = .ok S) {dir : FPath} (hd : path.parent = some dir) {ws : List (FPath × Str)}
    (hw : ∀ w ∈ ws, ∃ e ∈ S, w = (dir.join (.rel e.2.path), format T F e.2.schema)) :
    ∀ e ∈ S, (fs.afterWrites ws).read (dir.join (.rel e.2.path)) = some e.2.contents ∨
      (fs.afterWrites ws).read (dir.join (.rel e.2.path)) = some (format T F e.2.schema) := by
  obtain ⟨E, name, hE, hparent, hfs⟩ := load_parent h
  rw [hd] at hparent
  injection hparent with hparent
  subst hparent
  obtain ⟨E0, name0, hE0, hload⟩ := C40_loaded h
  rw [hE] at hE0
  injection hE0 with hE0; injection hE0 with e1 e2
  subst e1; subst e2
  intro e he
  obtain ⟨s, hs, hr⟩ := (hload.sound e he).2.2
  have hrd := hs.1
  rw [hfs] at hrd
  rcases afterWrites_read (fs := fs) (ws := ws) (q := E.base.join (.rel e.2.path)) with h1 | ⟨w, hww, ⟨c, hc1, hc2⟩, h1⟩
  · left; rw [h1, hrd]
  · right
    rw [h1]
    obtain ⟨e', he', rfl⟩ := hw w hww
    obtain ⟨s', hs', hr'⟩ := (hload.sound e' he').2.2
    have hrd' := hs'.1
    rw [hfs, FileSystem.read, hc2] at hrd'
    rw [FileSystem.read, hc1] at hrd
    have hcc : e.2.contents = e'.2.contents := by
      have : some e.2.contents = some e'.2.contents := hrd.symm.trans hrd'
      injection this
    obtain ⟨-, toks, t1, t2⟩ := hs
    obtain ⟨-, toks', t1', t2'⟩ := hs'
    rw [← hcc, t1] at t1'
    injection t1' with t1'
    subst t1'
    rw [t2] at t2'
    injection t2' with t2'
    subst t2'
    show some (format T F e'.2.schema) = _
    rw [format_resolved hr', format_resolved hr]

/-- **C90, partial.** Whatever a crash of `format` leaves behind, at most one file is damaged: one of the schemas which were not formatted, of which a leading part of the
formatted text is left, or which cannot be read. Every other path leads to what it led to before, or to a schema which now has its formatted text.
(Missing from `FormatLosesNothing`: the damaged file.) -/
theorem C90_one_file_partial {T : CharTable} {F : Nat → Str → Str} {fs fs' : FileSystem} {fuel : Nat} {can : FPath → Bool} {path : FPath}
    {S : List (Namespace × LoadedFile)} (h : loadSchemas T fs fuel path = .ok S) {dir : FPath} (hd : path.parent = some dir)
    (hi : fs.Interrupted (formatSchema T F fs fuel can path false).2 fs') :
    fs'.canonicalize = fs.canonicalize ∧
    ∃ damaged : Option (Namespace × LoadedFile),
      (∀ e, damaged = some e → e ∈ S ∧ e.2.contents ≠ format T F e.2.schema ∧
        (fs'.read (dir.join (.rel e.2.path)) = none ∨ ∃ t, t <+: format T F e.2.schema ∧ fs'.read (dir.join (.rel e.2.path)) = some t)) ∧
      (∀ q, (∀ e, damaged = some e → fs.canonicalize q ≠ fs.canonicalize (dir.join (.rel e.2.path))) →
        fs'.read q = fs.read q ∨ ∃ e ∈ S, fs.canonicalize q = fs.canonicalize (dir.join (.rel e.2.path)) ∧ fs'.read q = some (format T F e.2.schema)) ∧
      (∀ e ∈ S, (∀ e', damaged = some e' → fs.canonicalize (dir.join (.rel e.2.path)) ≠ fs.canonicalize (dir.join (.rel e'.2.path))) →
        fs'.read (dir.join (.rel e.2.path)) = some e.2.contents ∨ fs'.read (dir.join (.rel e.2.path)) = some (format T F e.2.schema)) := by
  have w1 := (C42_writes (F := F) (can := can) h hd).1
  generalize (formatSchema T F fs fuel can path false).2 = ws at w1 hi
  have hread : ∀ {ws' : List (FPath × Str)}, (∀ w ∈ ws', w ∈ ws) → ∀ q, (fs.afterWrites ws').read q = fs.read q ∨
      ∃ e ∈ S, fs.canonicalize q = fs.canonicalize (dir.join (.rel e.2.path)) ∧ (fs.afterWrites ws').read q = some (format T F e.2.schema) := by
    intro ws' hsub q
    rcases afterWrites_read (fs := fs) (ws := ws') (q := q) with h1 | ⟨w, hw, ⟨c, hc1, hc2⟩, h1⟩
    · exact .inl h1
    · obtain ⟨e, he, -, rfl⟩ := w1 w (hsub w hw)
      exact .inr ⟨e, he, by rw [hc1]; exact hc2.symm, h1⟩
  have hplan : ∀ {ws' : List (FPath × Str)}, (∀ w ∈ ws', w ∈ ws) → ∀ e ∈ S, (fs.afterWrites ws').read (dir.join (.rel e.2.path)) = some e.2.contents ∨
      (fs.afterWrites ws').read (dir.join (.rel e.2.path)) = some (format T F e.2.schema) := by
    intro ws' hsub
    refine read_planned h hd (fun w hw => ?_)
    obtain ⟨e, he, -, hwe⟩ := w1 w (hsub w hw)
    exact ⟨e, he, hwe⟩
  have hother : ∀ (g : FileSystem) (p : FPath) (t : Str) (q : FPath), g.canonicalize = fs.canonicalize → fs.canonicalize q ≠ fs.canonicalize p →
      (g.afterWrite (p, t)).read q = g.read q ∧ (g.spoil p).read q = g.read q := by
    intro g p t q hg hq
    simp only [FileSystem.read, FileSystem.afterWrite, FileSystem.spoil, hg]
    cases hc : fs.canonicalize q with
    | none => exact ⟨rfl, rfl⟩
    | some c =>
      have : ¬ fs.canonicalize p = some c := by rw [hc] at hq; exact fun h => hq h.symm
      simp [this]
  have hfound : ∀ e ∈ S, ∃ c, fs.canonicalize (dir.join (.rel e.2.path)) = some c := by
    intro e he
    have := hplan (ws' := []) (fun w hw => by cases hw) e he
    cases hc : fs.canonicalize (dir.join (.rel e.2.path)) with
    | some c => exact ⟨c, rfl⟩
    | none =>
      simp only [FileSystem.afterWrites, FileSystem.read, hc] at this
      rcases this with this | this <;> cases this
  cases hi with
  | between k ws =>
    refine ⟨afterWrites_canonicalize _ fs, none, by simp, fun q _ => hread (fun w hw => List.mem_of_mem_take hw) q,
      fun e he _ => hplan (fun w hw => List.mem_of_mem_take hw) e he⟩
  | during ws₁ w ws₂ j =>
    obtain ⟨e, he, hne, rfl⟩ := w1 w (by simp)
    obtain ⟨c, hc⟩ := hfound e he
    have hcan := afterWrites_canonicalize ws₁ fs
    refine ⟨hcan, some e, ?_, ?_, ?_⟩
    · intro e' hee
      cases hee
      refine ⟨he, hne, .inr ⟨_, List.take_prefix j _, ?_⟩⟩
      simp only [FileSystem.read, FileSystem.afterWrite, hcan, hc]
      simp
    · intro q hq
      rw [(hother _ _ _ q hcan (hq e rfl)).1]
      exact hread (fun w hw => by simp [hw]) q
    · intro e' he' hq
      rw [(hother _ _ _ _ hcan (hq e rfl)).1]
      exact hplan (fun w hw => by simp [hw]) e' he'
  | spoilt ws₁ w ws₂ =>
    obtain ⟨e, he, hne, rfl⟩ := w1 w (by simp)
    obtain ⟨c, hc⟩ := hfound e he
    have hcan := afterWrites_canonicalize ws₁ fs
    refine ⟨hcan, some e, ?_, ?_, ?_⟩
    · intro e' hee
      cases hee
      refine ⟨he, hne, .inl ?_⟩
      simp only [FileSystem.read, FileSystem.spoil, hcan, hc]
      simp
    · intro q hq
      rw [(hother _ _ [] q hcan (hq e rfl)).2]
      exact hread (fun w hw => by simp [hw]) q
    · intro e' he' hq
      rw [(hother _ _ [] _ hcan (hq e rfl)).2]
      exact hplan (fun w hw => by simp [hw]) e' he'

/-- **C90 (recovery).** If the damaged file is restored (with its old text; others may be, too), `generate` does exactly what it would have done before `format`. -/
theorem C90_recovery {T : CharTable} (hT : T.Ascii) (hS : T.SpaceApart) {F : Nat → Str → Str} {fs fs' : FileSystem} {fuel : Nat} {can : FPath → Bool}
    {path : FPath} {S : List (Namespace × LoadedFile)} (h : loadSchemas T fs fuel path = .ok S) {dir : FPath} (hd : path.parent = some dir)
    (hi : fs.Interrupted (formatSchema T F fs fuel can path false).2 fs')
    (hn : ∀ e ∈ S, NamesOk T (SnakeForms T) (PascalForms T) e.2.schema) (hc : ∀ e ∈ S, CommentsOk (Fillable T F) e.2.schema) :
    ∃ damaged : Option (Namespace × LoadedFile), (∀ e, damaged = some e → e ∈ S) ∧ ∀ restored : List (FPath × Str),
      (∀ w ∈ restored, ∃ e ∈ S, w = (dir.join (.rel e.2.path), e.2.contents)) →
      (∀ e, damaged = some e → (dir.join (.rel e.2.path), e.2.contents) ∈ restored) →
      ∀ (version : Str) (can' : Effect → Bool) (list : Bool) (rust ts : Option FPath),
        generateCode T (Gen.rustText T version) (TsGen.tsText T version) (fs'.afterWrites restored) fuel can' path list rust ts =
          generateCode T (Gen.rustText T version) (TsGen.tsText T version) fs fuel can' path list rust ts := by
  obtain ⟨hcan, damaged, h1, -, h3⟩ := C90_one_file_partial h hd hi
  refine ⟨damaged, fun e he => (h1 e he).1, fun restored hr1 hr2 version can' list rust ts => ?_⟩
  have hold : ∀ e ∈ S, fs.read (dir.join (.rel e.2.path)) = some e.2.contents := by
    obtain ⟨E, name, hE, hparent, hfs⟩ := load_parent h
    rw [hd] at hparent
    injection hparent with hparent
    subst hparent
    obtain ⟨E0, name0, hE0, hload⟩ := C40_loaded h
    rw [hE] at hE0
    injection hE0 with hE0; injection hE0 with e1 e2
    subst e1; subst e2
    intro e he
    obtain ⟨s, hs, hr⟩ := (hload.sound e he).2.2
    have := hs.1
    rwa [hfs] at this
  refine generate_formatted hT hS h hd (by rw [afterWrites_canonicalize, hcan]) ?_ hn hc version can' list rust ts
  intro e he
  rcases afterWrites_read (fs := fs') (ws := restored) (q := dir.join (.rel e.2.path)) with h1 | ⟨w, hw, ⟨c, hc1, hc2⟩, h1⟩
  · by_cases hq : ∀ e', damaged = some e' → fs.canonicalize (dir.join (.rel e.2.path)) ≠ fs.canonicalize (dir.join (.rel e'.2.path))
    · rw [h1]
      exact h3 e he hq
    · obtain ⟨e', hq1, hq2⟩ : ∃ e', damaged = some e' ∧ fs.canonicalize (dir.join (.rel e.2.path)) = fs.canonicalize (dir.join (.rel e'.2.path)) := by
        by_contra hno
        exact hq (fun e' h1 h2 => hno ⟨e', h1, h2⟩)
      left
      have hre := hold e he
      rw [FileSystem.read] at hre
      cases hcc : fs.canonicalize (dir.join (.rel e.2.path)) with
      | none => rw [hcc] at hre; cases hre
      | some c =>
        rw [hcc] at hre
        rw [FileSystem.read, afterWrites_canonicalize, hcan, hcc]
        refine afterWrites_contents restored fs' ?_ (.inr ⟨_, hr2 e' hq1, by rw [hcan, ← hq2, hcc]⟩)
        intro w hw hwc
        obtain ⟨e2, he2, rfl⟩ := hr1 w hw
        have := hold e2 he2
        rw [hcan] at hwc
        rw [FileSystem.read, hwc] at this
        have h2 : fs.contents c = some e2.2.contents := this
        have h3 : fs.contents c = some e.2.contents := hre
        rw [h2] at h3
        injection h3
  · left
    obtain ⟨e2, he2, rfl⟩ := hr1 w hw
    rw [h1]
    have g1 := hold e he
    have g2 := hold e2 he2
    rw [hcan] at hc1 hc2
    rw [FileSystem.read, hc1] at g1
    rw [FileSystem.read, hc2] at g2
    exact g2.symm.trans g1

/-! ## The witness, and concrete cases -/

/-- A schema which is not formatted. -/
def crashFs : FileSystem := simpleFs [(strs ["a.t"], "struct foo { x: U64 = 0 }\n".toList)] []

/-- The state after a crash at the beginning of the write: the file is empty. -/
def crashedFs : FileSystem := crashFs.afterWrite (FPath.ofStr "a.t".toList, [])

theorem crashedFs_interrupted :
    crashFs.Interrupted (formatSchema asciiTable keepLines crashFs 4 (fun _ => true) (FPath.ofStr "a.t".toList) false).2 crashedFs := by
  have h : formatSchema asciiTable keepLines crashFs 4 (fun _ => true) (FPath.ofStr "a.t".toList) false =
      (.success, [(FPath.ofStr "a.t".toList, "struct Foo {\n    x: U64 = 0\n}\n".toList)]) := by decide +kernel
  rw [h]
  exact .during [] _ [] 0

/-- Which types does the output declare? -/
def anyTypes (S : Schemas) : Str := if S.all (fun e => e.2.declarations.isEmpty) then "no types".toList else "types".toList

/-- **C90 is false.** After a crash at the beginning of a write the schema is lost. What is more, `generate` then succeeds, and overwrites the output by one without any
types. -/
theorem C90_witness :
    ¬ FormatLosesNothing asciiTable keepLines crashFs 4 (fun _ => true) (FPath.ofStr "a.t".toList) ∧
    generateCode asciiTable anyTypes anyTypes crashFs 4 (fun _ => true) (FPath.ofStr "a.t".toList) false
      (some (FPath.ofStr "a.rs".toList)) none = (.success, [.createDir (FPath.ofStr []), .write (FPath.ofStr "a.rs".toList) "types".toList]) ∧
    generateCode asciiTable anyTypes anyTypes crashedFs 4 (fun _ => true) (FPath.ofStr "a.t".toList) false
      (some (FPath.ofStr "a.rs".toList)) none = (.success, [.createDir (FPath.ofStr []), .write (FPath.ofStr "a.rs".toList) "no types".toList]) := by
  refine ⟨fun h => ?_, by decide +kernel, by decide +kernel⟩
  have hl : (match loadSchemas asciiTable crashFs 4 (FPath.ofStr "a.t".toList) with
    | .ok S => S.any (fun e => decide (crashedFs.read ((FPath.ofStr []).join (.rel e.2.path)) = some [] ∧ e.2.contents ≠ [] ∧ format asciiTable keepLines e.2.schema ≠ []))
    | _ => false) = true := by decide +kernel
  cases hS : loadSchemas asciiTable crashFs 4 (FPath.ofStr "a.t".toList) with
  | ok S =>
    rw [hS] at hl
    obtain ⟨e, he, h1⟩ := List.any_eq_true.mp hl
    obtain ⟨h2, h3, h4⟩ := of_decide_eq_true h1
    rcases h S (FPath.ofStr []) hS (by decide +kernel) _ crashedFs_interrupted e he with h5 | h5
    · rw [h2] at h5; injection h5 with h5; exact h3 h5.symm
    · rw [h2] at h5; injection h5 with h5; exact h4 h5.symm
  | _ => rw [hS] at hl; cases hl

/-- The conditions of C90_recovery hold of a run which is interrupted after the first of two files. -/
example : ∃ S, loadSchemas asciiTable styledFs 4 (FPath.ofStr "p/a.t".toList) = .ok S ∧ (FPath.ofStr "p/a.t".toList).parent = some (FPath.ofStr "p".toList) ∧
    (∀ e ∈ S, NamesOk asciiTable (SnakeForms asciiTable) (PascalForms asciiTable) e.2.schema) ∧
    (∀ e ∈ S, CommentsOk (Fillable asciiTable keepLines) e.2.schema) := by
  obtain ⟨S, h, hn, hc⟩ := styled_ok
  exact ⟨S, h, by decide +kernel, hn, hc⟩

end Typical
