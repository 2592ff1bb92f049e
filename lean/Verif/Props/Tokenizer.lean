import Verif.Front.PrintLemmas
import Verif.Props.Identifier

/-!
# Properties of the tokenizer (C33, C34)
-/

namespace Typical

theorem asciiTable_spaceApart : asciiTable.SpaceApart := by
  intro c h
  simp only [asciiTable, Bool.or_eq_true, Bool.and_eq_true, decide_eq_true_eq, beq_iff_eq] at h
  have hlt : c.toNat < 128 := by
    rcases h with h | h
    · subst h; decide
    · omega
  have key := ascii_all (fun c => !(c == ' ' || (9 ≤ c.toNat && c.toNat ≤ 13)) || (!c.isAlpha && !c.isAlphanum))
    (by decide +kernel) hlt
  have hw : (c == ' ' || (9 ≤ c.toNat && c.toNat ≤ 13)) = true := by simpa using h
  rw [hw] at key
  simp only [Bool.not_true, Bool.false_or, Bool.and_eq_true, Bool.not_eq_true'] at key
  have : ¬ 128 ≤ c.toNat := by omega
  simp [asciiTable, key, this]

/-- C33: tokenising succeeds with some tokens iff the source divides, by the lexical grammar, into white space and
those tokens, with those ranges. -/
theorem C33_lexical_grammar {T : CharTable} (hT : T.Ascii) (hS : T.SpaceApart) (s : Str) (ts : List Token) :
    tokenize T s = .ok ts ↔ Lexes T 0 s ts :=
  tokenize_iff hT hS s ts

theorem lexes_ranges {T : CharTable} {i : Nat} {s : Str} {ts : List Token} (h : Lexes T i s ts) :
    (∀ t ∈ ts, t.sourceRange.start < t.sourceRange.stop ∧
      ∃ a b c, s = a ++ b ++ c ∧ t.sourceRange = ⟨i + utf8Len a, i + utf8Len (a ++ b)⟩) ∧
    ts.Pairwise (fun t u => t.sourceRange.stop ≤ u.sourceRange.start) ∧
    ∀ a c b, s = a ++ c :: b → T.isWhitespace c = false →
      ∃ t ∈ ts, t.sourceRange.start ≤ i + utf8Len a ∧ i + utf8Len a < t.sourceRange.stop := by
  induction h with
  | @nil i s h =>
    refine ⟨by simp, .nil, ?_⟩
    intro a c b hs hc
    have := h c (by rw [hs]; simp)
    rw [hc] at this; cases this
  | @cons i gap text rest v ts hgap hne hsp hends h ih =>
    obtain ⟨ih1, ih2, ih3⟩ := ih
    refine ⟨?_, ?_, ?_⟩
    · intro t ht
      rcases List.mem_cons.mp ht with rfl | ht
      · refine ⟨?_, gap, text, rest, rfl, ?_⟩
        · have := utf8Len_pos hne
          dsimp only; omega
        · rw [utf8Len_append, Nat.add_assoc]
      · obtain ⟨h1, a, b, c, h2, h3⟩ := ih1 t ht
        refine ⟨h1, gap ++ text ++ a, b, c, by rw [h2]; simp, ?_⟩
        rw [h3]
        simp only [utf8Len_append, SourceRange.mk.injEq]
        omega
    · refine List.Pairwise.cons ?_ ih2
      intro u hu
      obtain ⟨h1, a, b, c, h2, h3⟩ := ih1 u hu
      rw [h3]
      dsimp only; omega
    · intro a c b hs hc
      have key2 : ∀ (a : Str) (g r : Str), g ++ r = a ++ c :: b →
          (∃ r', r = r' ++ c :: b ∧ a = g ++ r') ∨ ∃ g', g = a ++ c :: g' := by
        intro a g
        induction g generalizing a with
        | nil => intro r hr; exact .inl ⟨a, by simpa using hr, by simp⟩
        | cons x g ihg =>
          intro r hr
          cases a with
          | nil =>
            obtain ⟨h1, h2⟩ := List.cons.inj hr
            exact .inr ⟨g, by rw [h1]; rfl⟩
          | cons y a =>
            obtain ⟨h1, h2⟩ := List.cons.inj hr
            rcases ihg a r h2 with ⟨r', e1, e2⟩ | ⟨g', e⟩
            · exact .inl ⟨r', e1, by rw [h1, e2]; rfl⟩
            · exact .inr ⟨g', by rw [h1, e]; rfl⟩
      rw [List.append_assoc] at hs
      rcases key2 a gap (text ++ rest) hs with ⟨r', e1, e2⟩ | ⟨g', e⟩
      · subst e2
        rcases key2 r' text rest e1 with ⟨r'', e3, e4⟩ | ⟨g', e⟩
        · obtain ⟨t, ht, h1, h2⟩ := ih3 r'' c b e3 hc
          refine ⟨t, by simp [ht], ?_⟩
          rw [e4]
          simp only [utf8Len_append]
          omega
        · refine ⟨⟨⟨i + utf8Len gap, i + utf8Len gap + utf8Len text⟩, v⟩, List.mem_cons_self, ?_⟩
          have := c.utf8Size_pos
          dsimp only
          rw [e]
          simp only [utf8Len_append, utf8Len_cons]
          omega
      · have := hgap c (by rw [e]; simp)
        rw [hc] at this; cases this

/-- C33, on success: each token has a nonempty range which is a part of the source between characters, the ranges are in
order and do not overlap, and each character outside them is white space. -/
theorem C33_tiles {T : CharTable} (hT : T.Ascii) (hS : T.SpaceApart) (s : Str) (ts : List Token)
    (h : tokenize T s = .ok ts) :
    (∀ t ∈ ts, t.sourceRange.start < t.sourceRange.stop ∧ InSource s t.sourceRange) ∧
    ts.Pairwise (fun t u => t.sourceRange.stop ≤ u.sourceRange.start) ∧
    ∀ a c b, s = a ++ c :: b → T.isWhitespace c = false →
      ∃ t ∈ ts, t.sourceRange.start ≤ utf8Len a ∧ utf8Len a < t.sourceRange.stop := by
  obtain ⟨h1, h2, h3⟩ := lexes_ranges ((tokenize_iff hT hS s ts).mp h)
  refine ⟨fun t ht => ?_, h2, by simpa using h3⟩
  obtain ⟨h4, a, b, c, h5, h6⟩ := h1 t ht
  exact ⟨h4, a, b, c, h5, by rw [h6]; simp, by rw [h6]; simp⟩

/-- C33, on failure: there is an error, and each error names a part of the source. -/
theorem C33_errors {T : CharTable} (hT : T.Ascii) (s : Str) (es : List LexErr) (h : tokenize T s = .error es) :
    es ≠ [] ∧ ∀ e ∈ es, InSource s e.sourceRange := by
  unfold tokenize at h
  dsimp only at h
  split at h
  · cases h
  · rename_i hne
    cases h
    refine ⟨by intro he; rw [he] at hne; exact hne rfl, ?_⟩
    intro e he
    obtain ⟨a, b, c, h5, h6⟩ := lexFrom_errors hT s.length 0 s (Nat.le_refl _) e he
    exact ⟨a, b, c, h5, by rw [h6]; simp, by rw [h6]; simp⟩

/-- The division of a source into tokens is unique. -/
theorem C33_unambiguous {T : CharTable} (hT : T.Ascii) (hS : T.SpaceApart) {s : Str} {ts us : List Token}
    (h1 : Lexes T 0 s ts) (h2 : Lexes T 0 s us) : ts = us := by
  have e1 := (tokenize_iff hT hS s ts).mpr h1
  have e2 := (tokenize_iff hT hS s us).mpr h2
  rw [e1] at e2
  exact Except.ok.inj e2

/-- C34: tokenising the printed forms of tokens, separated by spaces, gives back the tokens. -/
theorem C34_print {T : CharTable} (hT : T.Ascii) (hS : T.SpaceApart) (vs : List TokVariant) (h : ∀ v ∈ vs, Writable T v) :
    ∃ ts, tokenize T (joinWith [' '] (vs.map TokVariant.show)) = .ok ts ∧ ts.map Token.variant = vs := by
  cases vs with
  | nil => exact ⟨[], rfl, rfl⟩
  | cons v vs =>
    have hsp : T.isWhitespace ' ' = true := by rw [hT.isWhitespace ' ' (by decide)]; decide
    have hnc : ∀ v, Writable T v → ∀ ps, v ≠ .comment ps := by
      intro v hv ps he; subst he; exact hv
    have e : joinWith [' '] ((v :: vs).map TokVariant.show) =
        v.show ++ (vs.map (fun v => ([' '], v.show, v))).flatMap (fun p => p.1 ++ p.2.1) := by
      clear h
      induction vs generalizing v with
      | nil => simp [joinWith]
      | cons w vs ih =>
        have := ih w
        simp only [List.map_cons, joinWith, List.flatMap_cons] at this ⊢
        rw [this]; simp
    obtain ⟨ts, hts, hmap⟩ := lexes_pieces hT hS (vs.map (fun v => ([' '], v.show, v))) (utf8Len v.show) (by
      intro p hp
      obtain ⟨w, hw, rfl⟩ := List.mem_map.mp hp
      exact ⟨by simp, by simpa using hsp, spells_show (h w (by simp [hw])), hnc w (h w (by simp [hw]))⟩)
    have hv := spells_show (h v (by simp))
    have hends : Ends T v v.show ((vs.map (fun v => ([' '], v.show, v))).flatMap (fun p => p.1 ++ p.2.1)) := by
      refine ends_space hT hS (hnc v (h v (by simp))) ?_
      intro c hc
      cases vs with
      | nil => exact absurd hc (by simp)
      | cons w vs =>
        have hc' : ' ' = c := by
          rw [List.map_cons, List.flatMap_cons] at hc
          exact Option.some.inj hc
        subst hc'; exact hsp
    have hc := Lexes.cons (i := 0) (gap := []) (by simp) (spells_ne_nil hv) hv hends (by simpa [utf8Len] using hts)
    rw [e]
    refine ⟨_, (tokenize_iff hT hS _ _).mpr hc, ?_⟩
    simp only [List.map_cons, hmap, List.map_map, Function.comp_def]
    simp

/-- C34 for any layout: texts of tokens separated by any white space. -/
theorem C34_any_white_space {T : CharTable} (hT : T.Ascii) (hS : T.SpaceApart) (pieces : List (Str × TokVariant))
    (h : ∀ p ∈ pieces, p.1 ≠ [] ∧ (∀ c ∈ p.1, T.isWhitespace c = true) ∧ Writable T p.2) :
    ∃ ts, tokenize T (pieces.flatMap (fun p => p.1 ++ p.2.show)) = .ok ts ∧
      ts.map Token.variant = pieces.map (fun p => p.2) := by
  obtain ⟨ts, h1, h2⟩ := lexes_pieces hT hS (pieces.map (fun p => (p.1, p.2.show, p.2))) 0 (by
    intro p hp
    obtain ⟨w, hw, rfl⟩ := List.mem_map.mp hp
    obtain ⟨h1, h2, h3⟩ := h w hw
    exact ⟨h1, h2, spells_show h3, by intro ps he; dsimp only at he; rw [he] at h3; exact h3⟩)
  refine ⟨ts, (tokenize_iff hT hS _ _).mpr (by simpa [List.flatMap_map] using h1), ?_⟩
  rw [h2]; simp

/-! ## Concrete cases -/

/-- A source with all kinds of tokens. -/
example : (match tokenize asciiTable "# A comment\n  #\n# goes on.\nstruct $struct { import 'a b.t' as x_1 = 10 }".toList with
    | .ok ts => ts.map Token.variant
    | .error _ => []) =
    [.comment ["A comment".toList, "goes on.".toList], .struct, .identifier (Identifier.ofStr asciiTable "struct".toList),
      .leftCurly, .import, .path "a b.t".toList, .as, .identifier (Identifier.ofStr asciiTable "x_1".toList), .equals,
      .integer 10, .rightCurly] := by decide +kernel

/-- Each kind of error. -/
example : (match tokenize asciiTable "_ $ 18446744073709551616 % 'abc".toList with
    | .ok _ => []
    | .error es => es) =
    [⟨.underscore, ⟨0, 1⟩⟩, ⟨.emptyIdentifier, ⟨2, 3⟩⟩, ⟨.integerTooLarge, ⟨4, 24⟩⟩, ⟨.unexpectedSymbol, ⟨25, 25⟩⟩,
      ⟨.unterminatedPath, ⟨27, 28⟩⟩] := by decide +kernel

example : Writable asciiTable (.identifier (Identifier.ofStr asciiTable "foo".toList)) :=
  ⟨⟨⟨'f', ['o', 'o'], rfl, rfl, by simp [CharTable.WordChar]; decide⟩, by
    rw [← keyword?_none]; decide⟩, rfl⟩

end Typical
