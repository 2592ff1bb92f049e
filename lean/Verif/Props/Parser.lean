import Verif.Front.ParserComplete
import Verif.Props.Tokenizer

/-!
# Properties of the parser (C35, C48)
-/

namespace Typical

/-- C48: the parser returns a schema iff the tokens are that schema by the grammar. -/
theorem C48_grammar (T : CharTable) (toks : List Token) (schema : Schema) :
    parse T toks = .ok schema ↔ SchemaSyntax T toks schema := parse_iff

/-- The grammar is unambiguous: tokens are at most one schema. -/
theorem C48_unambiguous {T : CharTable} {toks : List Token} {s t : Schema} (h1 : SchemaSyntax T toks s)
    (h2 : SchemaSyntax T toks t) : s = t := by
  have e1 := parse_iff.mpr h1
  rw [parse_iff.mpr h2] at e1
  cases e1
  rfl

/-- If the tokens are no schema there is at least one error (or a panic, see C35). -/
theorem C48_rejects {T : CharTable} {toks : List Token} (h : ∀ schema, ¬ SchemaSyntax T toks schema) :
    parse T toks = .panic ∨ ∃ errors, errors ≠ [] ∧ parse T toks = .err errors := by
  cases hp : parse T toks with
  | panic => exact .inl rfl
  | ok s => exact absurd (parse_iff.mp hp) (h s)
  | err errors =>
    refine .inr ⟨errors, ?_, rfl⟩
    intro he
    subst he
    unfold parse at hp
    have hs : ∀ pos, parseSchema T toks ≠ .none pos [] := by
      intro pos
      unfold parseSchema
      obtain ⟨c, rest, hc1, hc2, -⟩ := parseSchemaComment_spec toks
      dsimp only
      generalize parseSchemaComment toks = pc at hc2
      obtain ⟨comment, p⟩ := pc
      dsimp only at hc2 ⊢
      have hpos : p ≤ toks.length := by rw [hc1, hc2]; simp
      have hi := parseImports_spec (T := T) (toks.length + 1) [] p [] .nil hpos (by omega)
      generalize parseImports T toks (toks.length + 1) [] p [] = ri at hi ⊢
      cases ri with
      | panic => intro h; cases h
      | none pos' errors' =>
        obtain ⟨-, -, e, more, h⟩ := hi
        intro hh
        cases hh
        simp at h
      | some imports pos1 errors1 =>
        obtain ⟨i1, -⟩ := hi
        dsimp only [PRes.bind]
        rcases parseDeclarations_spec (toks := toks) (toks.length + 1) [] pos1 errors1 i1 (by omega) with hd | ⟨hd, -⟩
        · generalize parseDeclarations toks (toks.length + 1) [] pos1 errors1 = rd at hd ⊢
          cases rd with
          | panic => intro h; cases h
          | none pos' errors' =>
            obtain ⟨-, -, e, more, h⟩ := hd
            intro hh
            cases hh
            simp at h
          | some a b c => intro h; cases h
        · rw [hd]; intro h; cases h
    cases hr : parseSchema T toks with
    | panic => rw [hr] at hp; cases hp
    | none pos errors =>
      rw [hr] at hp
      cases hp
      exact hs pos hr
    | some s pos errors =>
      rw [hr] at hp
      dsimp only at hp
      generalize (if errors.isEmpty ∧ pos ≠ toks.length then errors ++ [⟨.unexpected, tokenSourceRange toks pos⟩]
        else errors) = E at hp
      by_cases herr : E.isEmpty
      · rw [if_pos herr] at hp; cases hp
      · rw [if_neg herr] at hp
        cases hp
        exact herr rfl

/-- C35, the part which holds: the parser returns a schema or errors for each sequence of tokens which does not have a
comment at its end, and for a comment alone. (Missing, because it is false: other sequences with a comment at the end,
see `C35_panics`.) -/
theorem C35_returns_partial (T : CharTable) (toks : List Token)
    (h : toks.length < 2 ∨ ∀ t, toks.getLast? = some t → ∀ ps, t.variant ≠ .comment ps) :
    (∃ schema, parse T toks = .ok schema) ∨ ∃ errors, parse T toks = .err errors := by
  cases hp : parse T toks with
  | ok s => exact .inl ⟨s, rfl⟩
  | err es => exact .inr ⟨es, rfl⟩
  | panic =>
    obtain ⟨h2, ps, hps⟩ := parse_panic hp
    rcases h with h | h
    · omega
    · obtain ⟨t, ht, hv⟩ := variantAt_some hps
      exact absurd hv (h t (by rw [List.getLast?_eq_getElem?]; exact ht) ps)

theorem decls_panic {toks ts : List Token} {ds : List Declaration} {t : Token} {ps : List Str}
    (ht : t.variant = .comment ps) (h : Many DeclSyntax ts ds) : ∀ (fuel : Nat)
    (acc : List Declaration) (pos : Nat) (errors : List ParseErr), ts.length < fuel → pos ≤ toks.length →
    toks.drop pos = ts ++ [t] → parseDeclarations toks fuel acc pos errors = .panic := by
  induction h with
  | nil =>
    intro fuel acc pos errors hf hp hd
    cases fuel with
    | zero => simp at hf
    | succ fuel =>
      have hl := congrArg List.length hd
      simp at hl
      rw [parseDeclarations, if_pos (by omega)]
      have hv : variantAt toks pos = some (.comment ps) := by rw [variantAt_ok (t := t) hd, ht]
      have hn : variantAt toks (pos + 1) = none := by simp [variantAt]; omega
      have : parseDeclaration toks pos errors = .panic := by
        simp [parseDeclaration, parseComment, hv, parseKeyword, hn, PRes.bind]
      rw [this]
  | @cons us d ts ds hd1 hds ih =>
    intro fuel acc pos errors hf hp hd
    cases fuel with
    | zero => simp at hf
    | succ fuel =>
      have hd : toks.drop pos = us ++ (ts ++ [t]) := by rw [hd]; simp
      have hne : 0 < us.length := by cases hd1; exact List.length_pos_iff.mpr (by simp)
      have hlt : pos < toks.length := by
        have := congrArg List.length hd
        simp at this
        omega
      rw [parseDeclarations, if_pos hlt, decl_ok hd1 hd]
      dsimp only
      rw [ih fuel (acc ++ [d]) (pos + us.length) errors (by simp at hf; omega) (drop_length hd hp) (drop_append hd)]

/-- C35 is false: for each nonempty file which parses, adding a comment at its end makes the parser panic. -/
theorem C35_panics (T : CharTable) (toks : List Token) (schema : Schema) (h : parse T toks = .ok schema) (hne : toks ≠ [])
    (t : Token) (ps : List Str) (ht : t.variant = .comment ps) : parse T (toks ++ [t]) = .panic := by
  have hs := parse_iff.mp h
  have hsc : parseSchemaComment (toks ++ [t]) = parseSchemaComment toks := by
    match toks, hne, hs with
    | [], hne, _ => exact absurd rfl hne
    | ⟨r, v⟩ :: ⟨r', v'⟩ :: rest, _, _ => 
      simp only [List.cons_append]
      cases v <;> rfl
    | [⟨r, v⟩], _, hs =>
      have hcom : ∃ qs, v = .comment qs := by
        generalize hx : [(⟨r, v⟩ : Token)] = toks at hs
        cases hs with
        | @mk c is ds comment written imports decls hc hw hnd hperm hsorted hds h1 h2 =>
          cases hc with
          | present hv =>
            simp at hx
            rw [← hx.1] at hv
            exact ⟨_, hv⟩
          | absent =>
            exfalso
            cases hw with
            | cons hi _ =>
              obtain ⟨a, b, us, rfl, -⟩ := import_first hi
              have := congrArg List.length hx
              simp at this
            | nil =>
              cases hds with
              | nil => cases hx
              | cons hd _ =>
                cases hd
                have := congrArg List.length hx
                simp at this
                omega
      obtain ⟨qs, rfl⟩ := hcom
      obtain ⟨r', v'⟩ := t
      dsimp only at ht
      subst ht
      simp [parseSchemaComment]
  cases hs with
  | @mk c is ds comment written imports decls hc hw hnd hperm hsorted hds h1 h2 =>
    have hpos : parseSchemaComment (c ++ is ++ ds) = (comment, c.length) := schemaComment_syntax hc hw hds h1 h2
    rw [hpos] at hsc
    have d0 : (c ++ is ++ ds ++ [t]).drop c.length = is ++ (ds ++ [t]) := by simp
    have hrest : ∀ u, (ds ++ [t]).head? = some u → u.variant ≠ .as ∧ u.variant ≠ .import := by
      intro u hu
      rcases many_decl_first hds with hn | ⟨t', us', hn, hv⟩ | ⟨t', u', us', ps', hn, hv, hk⟩
      · rw [hn] at hu; simp at hu; subst hu; rw [ht]; simp
      · rw [hn] at hu; simp at hu; subst hu
        rcases hv with hv | hv <;> rw [hv] <;> simp
      · rw [hn] at hu; simp at hu; subst hu
        rw [hv]; simp
    obtain ⟨imports', i1, -⟩ := imports_ok hw ((c ++ is ++ ds ++ [t]).length + 1) [] c.length [] (ds ++ [t])
      (by simp; omega) d0 hrest hnd (by simp) .nil
    have d1 : (c ++ is ++ ds ++ [t]).drop (c.length + is.length) = ds ++ [t] := by
      rw [← List.drop_drop, d0]; simp
    have hd := decls_panic (toks := c ++ is ++ ds ++ [t]) ht hds ((c ++ is ++ ds ++ [t]).length + 1) []
      (c.length + is.length) [] (by simp; omega) (by simp) d1
    unfold parse parseSchema
    rw [hsc]
    dsimp only
    rw [i1]
    dsimp only [PRes.bind]
    rw [hd]

/-- The tokens of a source. -/
def tokensOf (s : String) : List Token :=
  match tokenize asciiTable s.toList with
  | .ok ts => ts
  | .error _ => []

theorem tokensOf_ok (s : String) (h : (match tokenize asciiTable s.toList with | .ok _ => true | .error _ => false) = true) :
    tokenize asciiTable s.toList = .ok (tokensOf s) := by
  unfold tokensOf
  split
  · rename_i h; exact h
  · rename_i he; rw [he] at h; cases h

/-- C35 is false: a file with one declaration and then a comment makes the parser panic. -/
theorem C35_panic_witness : ∃ toks, tokenize asciiTable "struct Foo {\n}\n# The end.\n".toList = .ok toks ∧
    parse asciiTable toks = .panic :=
  ⟨tokensOf "struct Foo {\n}\n# The end.\n", tokensOf_ok _ (by decide +kernel), by decide +kernel⟩

/-! ## Concrete cases -/


/-- A file with all constructs. -/
def exampleSource : String :=
  "# About this file.\n\nimport 'b.t'\nimport '../a.t' as other\n# A struct\nstruct Foo {\n  # A field\n  x: [other.Bar] = 0\n  optional y = 1\n  deleted 5 3\n}\nchoice Bar { asymmetric z: u64 = 0 }\n"

/-- The parts of a schema which are not source ranges, in a form that can be compared. -/
def summary : ParseResult → List (List Str × Str) × List (List Str × Str × List (Rule × Str × Nat) × List Nat)
  | .ok s =>
    (([s.comment].map (fun c => (c, []))) ++ s.imports.map (fun i => ([i.1.snakeCase], i.2.path)),
      s.declarations.map (fun d => (d.comment, d.name.snakeCase, d.fields.map (fun f => (f.rule, f.name.snakeCase, f.index)),
        d.deleted)))
  | _ => ([], [])

set_option synthInstance.maxSize 2000 in
example : summary (parse asciiTable (tokensOf exampleSource)) =
    ([(["About this file.".toList], []), (["b".toList], "b.t".toList), (["other".toList], "../a.t".toList)],
      [(["A struct".toList], "foo".toList, [(.required, "x".toList, 0), (.optional, "y".toList, 1)], [3, 5]),
        ([], "bar".toList, [(.asymmetric, "z".toList, 0)], [])]) := by decide +kernel

set_option synthInstance.maxSize 2000 in
example : ∃ schema, SchemaSyntax asciiTable (tokensOf exampleSource) schema := by
  cases h : parse asciiTable (tokensOf exampleSource) with
  | ok s => exact ⟨s, parse_iff.mp h⟩
  | err es =>
    have : summary (parse asciiTable (tokensOf exampleSource)) ≠ ([], []) := by decide +kernel
    rw [h] at this
    exact absurd rfl this
  | panic =>
    have : summary (parse asciiTable (tokensOf exampleSource)) ≠ ([], []) := by decide +kernel
    rw [h] at this
    exact absurd rfl this

end Typical
