import Verif.Gen.SameCode
import Verif.TsGen.SameCode
import Verif.Front.FormatReload

/-!
# C88: formatting does not change the generated code

The code generators do not look at comments, at the layout of the schema, at deleted indices, at the paths of imports, nor at the style in
which names are written (`Spec/SameCode.lean` says what they look at). So the generated code is the same before and after `format`, also if
`format` was interrupted between two files.
-/

namespace Typical

/-- **C88 (Rust).** Files which differ only in comments, positions, deleted indices, the paths of imports (leading to the same files) and the
style of names have the same generated Rust code. -/
theorem C88_rust {T : CharTable} (hT : T.Ascii) (version : Str) {S S' : Schemas} (h : SameFiles T S S') :
    Gen.rustText T version S' = Gen.rustText T version S := Gen.rustText_same hT version h

/-- **C88 (TypeScript).** The same for TypeScript. -/
theorem C88_typescript {T : CharTable} (hT : T.Ascii) (version : Str) {S S' : Schemas} (h : SameFiles T S S') :
    TsGen.tsText T version S' = TsGen.tsText T version S := TsGen.tsText_same hT version h

/-- **C88 (names).** Names of ASCII letters, digits, `-` and `_` keep all their forms when they are written in lower case with underscores,
unless this is a reserved word; and when they are written capitalised, unless this is a reserved word or some word is only digits. -/
theorem C88_names {T : CharTable} (hT : T.Ascii) {s : Str} (h : LetterName s) :
    (¬ IsKeyword (Identifier.ofStr T s).snakeCase → SnakeForms T (Identifier.ofStr T s)) ∧
    (NoDigitWord T s → ¬ IsKeyword ((Identifier.ofStr T s).pascalCase T) → PascalForms T (Identifier.ofStr T s)) :=
  ⟨snakeForms hT h, pascalForms hT h⟩

/-- **C88 (validity).** Files which mean the same are valid together. -/
theorem C88_valid {S S' : Schemas} (h : SameMeaning S S') : S.WellFormed ↔ S'.WellFormed := ⟨h.wellFormed, h.symm.wellFormed⟩

/-- What a file contains after writes: what it contained, or one of the texts written to it. -/
theorem afterWrites_either {c : List Str} : ∀ (ws : List (FPath × Str)) (fs : FileSystem) {t : Str}, (fs.afterWrites ws).contents c = some t →
    fs.contents c = some t ∨ ∃ w ∈ ws, fs.canonicalize w.1 = some c ∧ w.2 = t
  | [], _, _, h => .inl h
  | w :: ws, fs, t, h => by
    rw [FileSystem.afterWrites] at h
    rcases afterWrites_either ws _ h with h | ⟨w', hw', h1, h2⟩
    · simp only [FileSystem.afterWrite] at h
      split at h
      · rename_i hc
        injection h with h
        exact .inr ⟨w, by simp, hc, h⟩
      · exact .inl h
    · exact .inr ⟨w', by simp [hw'], h1, h2⟩

/-- A file which has contents still has some after writes. -/
theorem afterWrites_some {c : List Str} : ∀ (ws : List (FPath × Str)) (fs : FileSystem), (∃ t, fs.contents c = some t) →
    ∃ t, (fs.afterWrites ws).contents c = some t
  | [], _, h => h
  | w :: ws, fs, ⟨t, h⟩ => by
    rw [FileSystem.afterWrites]
    refine afterWrites_some ws _ ?_
    simp only [FileSystem.afterWrite]
    split
    · exact ⟨_, rfl⟩
    · exact ⟨t, h⟩

/-- Two loads with the same meaning: `generate` does the same. -/
theorem generate_same {T : CharTable} {R Q : Schemas → Str} {fs fs' : FileSystem} {fuel : Nat} {can : Effect → Bool} {path : FPath}
    {list : Bool} {rust ts : Option FPath} {S S' : List (Namespace × LoadedFile)} (h : loadSchemas T fs fuel path = .ok S)
    (h' : loadSchemas T fs' fuel path = .ok S') (hp : S'.map (fun e => e.2.path) = S.map (fun e => e.2.path))
    (hm : SameMeaning (S.map (fun e => (e.1, e.2.schema))) (S'.map (fun e => (e.1, e.2.schema))))
    (hR : R (S'.map (fun e => (e.1, e.2.schema))) = R (S.map (fun e => (e.1, e.2.schema))))
    (hQ : Q (S'.map (fun e => (e.1, e.2.schema))) = Q (S.map (fun e => (e.1, e.2.schema)))) :
    generateCode T R Q fs' fuel can path list rust ts = generateCode T R Q fs fuel can path list rust ts := by
  obtain ⟨E, name, -, hd, -⟩ := load_parent h
  by_cases hw : Schemas.WellFormed (S.map (fun e => (e.1, e.2.schema)))
  · have r1 := C44_run (rustText := R) (tsText := Q) (can := can) (list := list) (rust := rust) (ts := ts) h hw hd
    have r2 := C44_run (rustText := R) (tsText := Q) (can := can) (list := list) (rust := rust) (ts := ts) h' ((C88_valid hm).mp hw) hd
    dsimp only at r1 r2
    rw [r1, r2, hp, hR, hQ]
  · have hbad : ∀ {fs0 S0}, loadSchemas T fs0 fuel path = .ok S0 → ¬ Schemas.WellFormed (S0.map (fun e => (e.1, e.2.schema))) →
        generateCode T R Q fs0 fuel can path list rust ts = (.failure, []) := by
      intro fs0 S0 h0 hn
      have hC := C40_establishes_loaded h0
      obtain ⟨errors, hv⟩ := C28_returns _ hC
      rw [← C28_accepts_exactly_well_formed _ hC, hv] at hn
      unfold generateCode
      rw [h0]
      dsimp only
      rw [hv]
      cases errors with
      | nil => exact absurd rfl hn
      | cons _ _ => rfl
    rw [hbad h hw, hbad h' (fun hw' => hw ((C88_valid hm).mpr hw'))]

/-- If some of the files have their formatted text, and the others their own, `generate` does the same. -/
theorem generate_formatted {T : CharTable} (hT : T.Ascii) (hS : T.SpaceApart) {F : Nat → Str → Str} {fs fs' : FileSystem} {fuel : Nat}
    {path dir : FPath} {S : List (Namespace × LoadedFile)} (h : loadSchemas T fs fuel path = .ok S) (hparent : path.parent = some dir)
    (hcan : fs'.canonicalize = fs.canonicalize)
    (hnew : ∀ e ∈ S, fs'.read (dir.join (.rel e.2.path)) = some e.2.contents ∨ fs'.read (dir.join (.rel e.2.path)) = some (format T F e.2.schema))
    (hn : ∀ e ∈ S, NamesOk T (SnakeForms T) (PascalForms T) e.2.schema) (hc : ∀ e ∈ S, CommentsOk (Fillable T F) e.2.schema)
    (version : Str) (can' : Effect → Bool) (list : Bool) (rust ts : Option FPath) :
    generateCode T (Gen.rustText T version) (TsGen.tsText T version) fs' fuel can' path list rust ts =
      generateCode T (Gen.rustText T version) (TsGen.tsText T version) fs fuel can' path list rust ts := by
  obtain ⟨S', hS', hsame⟩ := reload hT hS h hparent hcan hnew hn hc
  have hfiles : SameFiles T (S.map (fun e => (e.1, e.2.schema))) (S'.map (fun e => (e.1, e.2.schema))) := by
    have : ∀ {A B : List (Namespace × LoadedFile)}, Each (fun e e' => e'.1 = e.1 ∧ e'.2.path = e.2.path ∧
        Each SameTarget e.2.schema.imports e'.2.schema.imports ∧ Each (SameBoth T) e.2.schema.declarations e'.2.schema.declarations) A B →
        SameFiles T (A.map (fun e => (e.1, e.2.schema))) (B.map (fun e => (e.1, e.2.schema))) := by
      intro A B hAB
      induction hAB with
      | nil => exact .nil
      | cons h0 _ ih => exact .cons ⟨h0.1, h0.2.2.1, each_imp h0.2.2.2 (fun d _ d' hb => hb.1)⟩ ih
    exact this hsame
  have hmean : SameMeaning (S.map (fun e => (e.1, e.2.schema))) (S'.map (fun e => (e.1, e.2.schema))) := by
    have : ∀ {A B : List (Namespace × LoadedFile)}, Each (fun e e' => e'.1 = e.1 ∧ e'.2.path = e.2.path ∧
        Each SameTarget e.2.schema.imports e'.2.schema.imports ∧ Each (SameBoth T) e.2.schema.declarations e'.2.schema.declarations) A B →
        SameMeaning (A.map (fun e => (e.1, e.2.schema))) (B.map (fun e => (e.1, e.2.schema))) := by
      intro A B hAB
      induction hAB with
      | nil => exact .nil
      | cons h0 _ ih => exact .cons ⟨h0.1, h0.2.2.1, each_imp h0.2.2.2 (fun d _ d' hb => hb.2)⟩ ih
    exact this hsame
  exact generate_same h hS' (each_map_eq hsame (fun e e' he => he.2.1)) hmean (C88_rust hT version hfiles) (C88_typescript hT version hfiles)

/-- **C88 (formatting).** Let `format` run, with any failures of its writes, and let it be interrupted after any number `k` of these writes.
Then `generate` does exactly what it would have done before: it succeeds or fails in the same way, and writes the same text. Conditions: the names
of the schemas keep their forms (`C88_names`), and no comment is lost by the filling of paragraphs. -/
theorem C88_format {T : CharTable} (hT : T.Ascii) (hS : T.SpaceApart) {F : Nat → Str → Str} {fs : FileSystem} {fuel : Nat}
    {can : FPath → Bool} {path : FPath} {S : List (Namespace × LoadedFile)} (h : loadSchemas T fs fuel path = .ok S)
    (hn : ∀ e ∈ S, NamesOk T (SnakeForms T) (PascalForms T) e.2.schema) (hc : ∀ e ∈ S, CommentsOk (Fillable T F) e.2.schema)
    (k : Nat) (version : Str) (can' : Effect → Bool) (list : Bool) (rust ts : Option FPath) :
    generateCode T (Gen.rustText T version) (TsGen.tsText T version)
        (fs.afterWrites ((formatSchema T F fs fuel can path false).2.take k)) fuel can' path list rust ts =
      generateCode T (Gen.rustText T version) (TsGen.tsText T version) fs fuel can' path list rust ts := by
  obtain ⟨E, name, hE, hparent, hfs⟩ := load_parent h
  obtain ⟨E0, name0, hE0, hload⟩ := C40_loaded h
  rw [hE] at hE0
  injection hE0 with hE0; injection hE0 with e1 e2
  subst e1; subst e2
  have w1 := (C42_writes (F := F) (can := can) h hparent).1
  generalize (formatSchema T F fs fuel can path false).2 = ws at w1
  have w1 : ∀ w ∈ ws.take k, ∃ e ∈ S, w = (E.base.join (.rel e.2.path), format T F e.2.schema) := by
    intro w hw
    obtain ⟨e, he, -, hwe⟩ := w1 w (List.mem_of_mem_take hw)
    exact ⟨e, he, hwe⟩
  generalize ws.take k = ws at w1
  have hcan : (fs.afterWrites ws).canonicalize = fs.canonicalize := afterWrites_canonicalize ws fs
  have hres : ∀ e ∈ S, ∃ s, Parses T E e.2.path e.2.contents s ∧ ResolvedSchema T E e.2.path s e.2.schema :=
    fun e he => (hload.sound e he).2.2
  have hnew : ∀ e ∈ S, (fs.afterWrites ws).read (E.base.join (.rel e.2.path)) = some e.2.contents ∨
      (fs.afterWrites ws).read (E.base.join (.rel e.2.path)) = some (format T F e.2.schema) := by
    intro e he
    obtain ⟨s, hs, hr⟩ := hres e he
    have hrd := hs.1
    rw [hfs, FileSystem.read] at hrd
    cases hcc : fs.canonicalize (E.base.join (.rel e.2.path)) with
    | none => rw [hcc] at hrd; cases hrd
    | some c =>
      rw [hcc] at hrd
      have hrd : fs.contents c = some e.2.contents := hrd
      rw [FileSystem.read, hcan, hcc]
      show (fs.afterWrites ws).contents c = _ ∨ (fs.afterWrites ws).contents c = _
      obtain ⟨t, ht⟩ := afterWrites_some ws fs ⟨_, hrd⟩
      rw [ht]
      rcases afterWrites_either ws fs ht with hold | ⟨w, hw, hwc, rfl⟩
      · rw [hrd] at hold
        exact .inl hold.symm
      · right
        obtain ⟨e', he', rfl⟩ := w1 w hw
        obtain ⟨s', hs', hr'⟩ := hres e' he'
        have hrd' := hs'.1
        rw [hfs, FileSystem.read, hwc] at hrd'
        have hrd' : fs.contents c = some e'.2.contents := hrd'
        rw [hrd] at hrd'
        injection hrd' with hrd'
        obtain ⟨-, toks, t1, t2⟩ := hs
        obtain ⟨-, toks', t1', t2'⟩ := hs'
        rw [← hrd', t1] at t1'
        injection t1' with t1'
        subst t1'
        rw [t2] at t2'
        injection t2' with t2'
        subst t2'
        show some (format T F e'.2.schema) = _
        rw [format_resolved hr', format_resolved hr]
  exact generate_formatted hT hS h hparent hcan hnew hn hc version can' list rust ts

/-! ## Concrete cases -/

/-- Evaluation of `SameForms`. -/
def formsCheck (T : CharTable) (a b : Identifier) : Bool :=
  a.snakeCase == b.snakeCase && a.camelCase T == b.camelCase T && a.pascalCase T == b.pascalCase T

theorem formsCheck_ok {T : CharTable} {a b : Identifier} (h : formsCheck T a b = true) : SameForms T a b := by
  simp only [formsCheck, Bool.and_eq_true, beq_iff_eq] at h
  exact ⟨h.1.1, h.1.2, h.2⟩

/-- A file with an import, comments, deleted indices and names of various styles, and a file which it imports. -/
def styledFs : FileSystem := simpleFs
  [(strs ["p", "a.t"], "# About.\nimport 'sub/b.t'\nstruct fooBar { # Some field.\n someField: b.bar = 0   deleted 3\n}\n".toList),
    (strs ["p", "sub", "b.t"], "choice bar {\n optional y: [U64] = 0 }\n".toList)] []

def snakeFormsCheck (T : CharTable) (n : Identifier) : Bool := plainCheck T n.snakeCase && formsCheck T n (Identifier.ofStr T n.snakeCase)

def pascalFormsCheck (T : CharTable) (n : Identifier) : Bool :=
  plainCheck T (n.pascalCase T) && formsCheck T n (Identifier.ofStr T (n.pascalCase T))

def typeFormsCheck (T : CharTable) : TypeVariant → Bool
  | .array _ a => typeFormsCheck T a
  | .custom (some i) n => snakeFormsCheck T i && pascalFormsCheck T n
  | .custom none n => pascalFormsCheck T n
  | _ => true

/-- Evaluation of the condition on names. -/
def namesFormsCheck (T : CharTable) (s : Schema) : Bool :=
  s.imports.all (fun i => snakeFormsCheck T i.1) &&
  s.declarations.all (fun d => pascalFormsCheck T d.name && d.fields.all (fun f => snakeFormsCheck T f.name && typeFormsCheck T f.type.variant))

theorem snakeFormsCheck_ok {T : CharTable} {n : Identifier} (h : snakeFormsCheck T n = true) : SnakeForms T n := by
  rw [snakeFormsCheck, Bool.and_eq_true] at h
  exact ⟨plainCheck_ok h.1, formsCheck_ok h.2⟩

theorem pascalFormsCheck_ok {T : CharTable} {n : Identifier} (h : pascalFormsCheck T n = true) : PascalForms T n := by
  rw [pascalFormsCheck, Bool.and_eq_true] at h
  exact ⟨plainCheck_ok h.1, formsCheck_ok h.2⟩

theorem typeFormsCheck_ok {T : CharTable} : ∀ {ty : TypeVariant}, typeFormsCheck T ty = true → TypeNames (SnakeForms T) (PascalForms T) ty
  | .array _ a, h => typeFormsCheck_ok (ty := a) h
  | .custom (some i) n, h => by
    rw [typeFormsCheck, Bool.and_eq_true] at h
    exact ⟨fun m hm => by injection hm with hm; subst hm; exact snakeFormsCheck_ok h.1, pascalFormsCheck_ok h.2⟩
  | .custom none n, h => ⟨fun m hm => (by cases hm), pascalFormsCheck_ok h⟩
  | .bool, _ => trivial
  | .bytes, _ => trivial
  | .f64, _ => trivial
  | .s64, _ => trivial
  | .string, _ => trivial
  | .u64, _ => trivial
  | .unit, _ => trivial

theorem namesFormsCheck_ok {T : CharTable} {s : Schema} (h : namesFormsCheck T s = true) : NamesOk T (SnakeForms T) (PascalForms T) s := by
  unfold namesFormsCheck at h
  simp only [Bool.and_eq_true, List.all_eq_true] at h
  exact ⟨fun i hi => .inr (snakeFormsCheck_ok (h.1 i hi)), fun d hd => pascalFormsCheck_ok (h.2 d hd).1,
    fun d hd f hf => ⟨snakeFormsCheck_ok ((h.2 d hd).2 f hf).1, typeFormsCheck_ok ((h.2 d hd).2 f hf).2⟩⟩

/-- The conditions of C88_format hold of it. -/
theorem styled_ok : ∃ S, loadSchemas asciiTable styledFs 4 (FPath.ofStr "p/a.t".toList) = .ok S ∧
    (∀ e ∈ S, NamesOk asciiTable (SnakeForms asciiTable) (PascalForms asciiTable) e.2.schema) ∧
    (∀ e ∈ S, CommentsOk (Fillable asciiTable keepLines) e.2.schema) := by
  have h : (match loadSchemas asciiTable styledFs 4 (FPath.ofStr "p/a.t".toList) with
    | .ok S => S.all (fun e => namesFormsCheck asciiTable e.2.schema && commentsCheck asciiTable e.2.schema)
    | _ => false) = true := by decide +kernel
  cases hl : loadSchemas asciiTable styledFs 4 (FPath.ofStr "p/a.t".toList) with
  | ok S =>
    rw [hl] at h
    simp only [List.all_eq_true, Bool.and_eq_true] at h
    refine ⟨S, rfl, fun e he => namesFormsCheck_ok (h e he).1, fun e he => ?_⟩
    have := commentsCheck_ok (h e he).2
    exact ⟨fun p hp => (this.schema p hp).1, fun d hd p hp => (this.declarations d hd p hp).1, fun d hd f hf p hp => (this.fields d hd f hf p hp).1⟩
  | _ => rw [hl] at h; cases h

/-- Formatting writes two files. -/
example : formatSchema asciiTable keepLines styledFs 4 (fun _ => true) (FPath.ofStr "p/a.t".toList) false =
    (.success, [(FPath.ofStr "p/a.t".toList, "# About.\n\nimport 'sub/b.t'\n\nstruct FooBar {\n    # Some field.\n    some_field: b.Bar = 0\n\n    deleted 3\n}\n".toList),
      (FPath.ofStr "p/sub/b.t".toList, "choice Bar {\n    optional y: [U64] = 0\n}\n".toList)]) := by
  decide +kernel

/-- Interrupted after the first of them, or not at all, it changes nothing for `generate`. -/
example (version : Str) (can' : Effect → Bool) (k : Nat) :
    generateCode asciiTable (Gen.rustText asciiTable version) (TsGen.tsText asciiTable version)
      (styledFs.afterWrites ((formatSchema asciiTable keepLines styledFs 4 (fun _ => true) (FPath.ofStr "p/a.t".toList) false).2.take k))
      4 can' (FPath.ofStr "p/a.t".toList) true (some (FPath.ofStr "out/a.rs".toList)) none =
    generateCode asciiTable (Gen.rustText asciiTable version) (TsGen.tsText asciiTable version) styledFs
      4 can' (FPath.ofStr "p/a.t".toList) true (some (FPath.ofStr "out/a.rs".toList)) none := by
  obtain ⟨S, h, hn, hc⟩ := styled_ok
  exact C88_format asciiTable_ascii asciiTable_spaceApart h hn hc k version can' true _ none

/-- The condition on names matters: `foo_1` and `foo1` are two types, which formatting writes in the same way (`Foo1`), so that `generate` fails
afterwards. -/
example :
    let fs := simpleFs [(strs ["a.t"], "struct foo_1 {}\nstruct foo1 {}\n".toList)] []
    let path := FPath.ofStr "a.t".toList
    let fs' := fs.afterWrites (formatSchema asciiTable keepLines fs 4 (fun _ => true) path false).2
    (generateCode asciiTable (fun _ => []) (fun _ => []) fs 4 (fun _ => true) path false none none).1 = .success ∧
    (generateCode asciiTable (fun _ => []) (fun _ => []) fs' 4 (fun _ => true) path false none none).1 = .failure := by
  decide +kernel

end Typical
