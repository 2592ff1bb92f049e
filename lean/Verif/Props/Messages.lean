import Verif.Props.Report
import Verif.Spec.Messages

/-!
# C97: a message of the parser names what is there
-/

namespace Typical

theorem showNatAux_zero : ∀ (fuel n : Nat), n < fuel → (showNatAux fuel n).head? = some '0' → n = 0
  | 0, _, h, _ => by omega
  | fuel + 1, n, h, h0 => by
    rw [showNatAux] at h0
    by_cases hn : n < 10
    · rw [if_pos hn] at h0
      have : ∀ k, k < 10 → Char.ofNat (48 + k % 10) = '0' → k = 0 := by decide
      exact this n hn (by simpa using h0)
    · rw [if_neg hn] at h0
      have hne := (showNatAux_spec fuel (n / 10) (by omega)).1
      have : (showNatAux fuel (n / 10)).head? = some '0' := by
        cases hx : showNatAux fuel (n / 10) with
        | nil => exact absurd hx hne
        | cons c s => rw [hx] at h0; exact h0
      have := showNatAux_zero fuel (n / 10) (by omega) this
      omega

theorem alphabetic_head {T : CharTable} (hT : T.Ascii) {c : Char} (h : T.isAlphabetic c = true) :
    c ≠ '$' ∧ c ≠ '#' ∧ c.isDigit = false := by
  refine ⟨?_, ?_, ?_⟩
  · rintro rfl
    rw [hT.isAlphabetic _ (by decide)] at h
    exact absurd h (by decide)
  · rintro rfl
    rw [hT.isAlphabetic _ (by decide)] at h
    exact absurd h (by decide)
  · cases hd : c.isDigit with
    | false => rfl
    | true =>
      obtain ⟨d1, d2, -⟩ := isDigit_ascii hd
      rw [hT.isAlphabetic _ d1, d2] at h
      cases h

theorem spells_shownAs {T : CharTable} (hT : T.Ascii) {text : Str} {v : TokVariant} (h : Spells T text v) : ShownAs T text v.show := by
  cases h with
  | @symbol c v h =>
    have : ∀ p ∈ symbolTable, p.2.show = [p.1] ∧ p.1 ≠ '$' ∧ p.1 ≠ '#' ∧ p.1.isDigit = false := by decide
    obtain ⟨h1, h2⟩ := this _ h
    dsimp only at h1 h2
    rw [h1]
    exact .verbatim (by intro d hd; cases hd; exact h2)
  | @keyword k v h =>
    have : ∀ p ∈ keywordTable, p.2.show = p.1.toList ∧ ∀ c ∈ p.1.toList.head?, c ≠ '$' ∧ c ≠ '#' ∧ c.isDigit = false := by
      decide +kernel
    obtain ⟨h1, h2⟩ := this _ h
    dsimp only at h1 h2
    rw [h1]
    exact .verbatim h2
  | @identifier c w h1 h2 h3 =>
    refine .verbatim (text := c :: w) ?_
    intro d hd
    cases hd
    exact alphabetic_head hT h1
  | raw h1 h2 h3 => exact .raw
  | integer h1 h2 h3 =>
    obtain ⟨s1, s2, s3⟩ := showNat_spec (digitsValue text)
    refine .number h1 h2 s1 s2 s3 ?_
    intro h0
    have : digitsValue text = 0 := showNatAux_zero _ _ (by omega) h0
    show showNat (digitsValue text) = ['0']
    rw [this]; rfl
  | @path p h =>
    exact .verbatim (text := '\'' :: p ++ ['\'']) (by intro d hd; cases hd; decide)
  | comment h1 h2 => exact .comment h1 h2

theorem lexes_spells {T : CharTable} {i : Nat} {s : Str} {ts : List Token} (h : Lexes T i s ts) :
    ∀ t ∈ ts, ∃ a b c, s = a ++ b ++ c ∧ b ≠ [] ∧ Spells T b t.variant ∧ t.sourceRange = ⟨i + utf8Len a, i + utf8Len (a ++ b)⟩ := by
  induction h with
  | nil h => simp
  | @cons i gap text rest v ts hgap hne hsp hends h ih =>
    intro t ht
    rcases List.mem_cons.mp ht with rfl | ht
    · exact ⟨gap, text, rest, rfl, hne, hsp, by rw [utf8Len_append, Nat.add_assoc]⟩
    · obtain ⟨a, b, c, h1, h2, h3, h4⟩ := ih t ht
      refine ⟨gap ++ text ++ a, b, c, by rw [h1]; simp, h2, h3, ?_⟩
      rw [h4]
      simp only [utf8Len_append, SourceRange.mk.injEq]
      omega

/-- The token which a message names is the one at the position. -/
theorem token_at {T : CharTable} {s : Str} {toks : List Token} (h : Lexes T 0 s toks) {pos : Nat} {e : ParseErr}
    (he : e.sourceRange = tokenSourceRange toks pos) : e.token toks = toks[pos]? := by
  obtain ⟨h1, h2, -⟩ := lexes_ranges h
  unfold ParseErr.token
  rw [he]
  unfold tokenSourceRange
  cases hp : toks[pos]? with
  | some t =>
    dsimp only
    cases hf : toks.find? (fun u => u.sourceRange == t.sourceRange) with
    | none =>
      rw [List.find?_eq_none] at hf
      exact absurd (by simp) (hf t (List.mem_of_getElem? hp))
    | some u =>
      have hu := List.mem_of_find?_eq_some hf
      have hr : u.sourceRange = t.sourceRange := by simpa using List.find?_some hf
      congr 1
      obtain ⟨i, hi, rfl⟩ := List.getElem_of_mem hu
      obtain ⟨hj, rfl⟩ := List.getElem?_eq_some_iff.mp hp
      have a1 := (h1 _ hu).1
      rcases Nat.lt_trichotomy i pos with hlt | heq | hgt
      · have := List.pairwise_iff_getElem.mp h2 i pos hi hj hlt
        rw [hr] at this a1
        omega
      · subst heq; rfl
      · have := List.pairwise_iff_getElem.mp h2 pos i hj hi hgt
        rw [hr] at this a1
        omega
  | none =>
    dsimp only
    rw [List.find?_eq_none]
    intro u hu
    have a1 := (h1 _ hu).1
    cases hl : toks.getLast? with
    | none => simp at hl; subst hl; cases hu
    | some t =>
      intro hc
      have hc : u.sourceRange = ⟨t.sourceRange.stop, t.sourceRange.stop⟩ := by simpa using hc
      rw [hc] at a1
      exact Nat.lt_irrefl _ a1

/-- After the last token there is only white space. -/
theorem last_token {T : CharTable} {s : Str} {toks : List Token} (h : Lexes T 0 s toks) {t : Token} (ht : toks.getLast? = some t) :
    ∃ a b, s = a ++ b ∧ t.sourceRange.stop = utf8Len a ∧ (∀ c ∈ b, T.isWhitespace c = true) ∧
      ∃ first text v, a = first ++ text ∧ Spells T text v := by
  obtain ⟨h1, h2, h3⟩ := lexes_ranges h
  obtain ⟨a, b, c, e, -, hs, er⟩ := lexes_spells h t (List.mem_of_getLast? ht)
  refine ⟨a ++ b, c, e, by rw [er]; simp, ?_, a, b, _, rfl, hs⟩
  intro x hx
  cases hw : T.isWhitespace x with
  | true => rfl
  | false =>
    obtain ⟨c1, c2, rfl⟩ := List.append_of_mem hx
    obtain ⟨u, hu, hu1, hu2⟩ := h3 (a ++ b ++ c1) x c2 (by rw [e]; simp) hw
    obtain ⟨i, hi, rfl⟩ := List.getElem_of_mem hu
    have hlast : t.sourceRange.stop = utf8Len (a ++ b) := by rw [er]; simp
    obtain ⟨init, rfl⟩ := List.getLast?_eq_some_iff.mp ht
    simp only [List.length_append, List.length_singleton] at hi
    have hle : (init ++ [t])[i].sourceRange.stop ≤ t.sourceRange.stop := by
      rcases Nat.lt_or_ge i init.length with hlt | hge
      · have := List.pairwise_iff_getElem.mp h2 i init.length (by simp; omega) (by simp) hlt
        simp only [List.getElem_concat_length] at this
        have := (h1 t (by simp)).1
        omega
      · obtain rfl : i = init.length := by omega
        simp
    rw [utf8Len_append (a ++ b) c1] at hu2
    omega

theorem blank_iff {T : CharTable} (hT : T.Ascii) (hS : T.SpaceApart) {s : Str} {toks : List Token} (ht : tokenize T s = .ok toks) :
    toks = [] ↔ ∀ c ∈ s, T.isWhitespace c = true := by
  constructor
  · rintro rfl
    have := (tokenize_iff hT hS s []).mp ht
    cases this with
    | nil h => exact h
  · intro h
    have := (tokenize_iff hT hS s []).mpr (.nil h)
    rw [ht] at this
    injection this

theorem tokensIn_ok {T : CharTable} {s : Str} {toks : List Token} (ht : tokenize T s = .ok toks) : tokensIn T s = toks := by
  unfold tokensIn; rw [ht]

/-- **C97 (blank files).** A file with only white space is a schema without anything in it, and not an error. -/
theorem C97_blank {T : CharTable} (hT : T.Ascii) (hS : T.SpaceApart) {source : Str} (h : ∀ c ∈ source, T.isWhitespace c = true) :
    tokenize T source = .ok [] ∧ parse T [] = .ok ⟨[], [], []⟩ :=
  ⟨(tokenize_iff hT hS source []).mpr (.nil h), rfl⟩

/-- **C97.** A message of the parser about something which was expected says that it was expected at the end of the file if the listed
place is the end of what is in the file, and otherwise names the text which is listed. -/
theorem C97_expected {T : CharTable} (hT : T.Ascii) (hS : T.SpaceApart) {source : Str} {toks : List Token}
    (ht : tokenize T source = .ok toks) {es : List ParseErr} (h : parse T toks = .err es) {e : ParseErr} (he : e ∈ es) {what : String}
    (hk : e.kind = .expected what) (P : Style) :
    SaysExpected T P source (expectationText P what) e.sourceRange (e.message P (tokensIn T source)) := by
  have hl := (tokenize_iff hT hS source toks).mp ht
  obtain ⟨pos, hpos, hr, -⟩ := (parse_errors_ok h e he).2.1 what hk
  have htok := token_at hl hr
  have hb := blank_iff hT hS ht
  rw [tokensIn_ok ht]
  unfold ParseErr.message
  rw [hk]
  dsimp only
  by_cases hn : toks = []
  · subst hn
    cases h
  · rw [if_neg hn, htok]
    cases hp : toks[pos]? with
    | none =>
      dsimp only
      cases hlast : toks.getLast? with
      | none => simp at hlast; exact absurd hlast hn
      | some t =>
        obtain ⟨a, b, h1, h2, h3, h4⟩ := last_token hl hlast
        refine .atEnd a b (fun hx => hn (hb.mpr hx)) h1 h3 h4 ?_ rfl
        rw [hr]
        unfold tokenSourceRange
        rw [hp, hlast, ← h2]
    | some t =>
      dsimp only
      obtain ⟨a, b, c, h1, h2, h3, h4⟩ := lexes_spells hl t (List.mem_of_getElem? hp)
      refine .encountered a b c _ h1 h2 ?_ (spells_shownAs hT h3) rfl
      rw [hr]
      unfold tokenSourceRange
      rw [hp]
      dsimp only
      rw [h4]
      simp

/-- **C97 (nothing is left over).** The parser never reports the error `Unexpected …`: if it does not use all tokens, it has found
another error. -/
theorem C97_never_unexpected {T : CharTable} {toks : List Token} {es : List ParseErr} (h : parse T toks = .err es) {e : ParseErr}
    (he : e ∈ es) : e.kind ≠ .unexpected :=
  (parse_errors_ok h e he).2.2

theorem plain_expectation {what : String} {v : TokVariant} (h : Names what v) : expectationText .plain what = what.toList := by
  have h1 : ∀ p ∈ fixedExpectations, expectationText .plain p.1 = p.1.toList := by decide +kernel
  have h2 : ∀ w ∈ nameExpectations, expectationText .plain w = w.toList := by decide +kernel
  rcases h with h | h | h | h
  · exact h1 _ h
  · exact h2 _ h.1
  · rw [h.1]; decide +kernel
  · rw [h.1]; decide +kernel

/-- **C97 (what was expected is not there).** Each expectation stands for some token, and the text which is listed does not spell one for
which it stands. -/
theorem C97_not_there {T : CharTable} (hT : T.Ascii) (hS : T.SpaceApart) {source : Str} {toks : List Token}
    (ht : tokenize T source = .ok toks) {es : List ParseErr} (h : parse T toks = .err es) {e : ParseErr} (he : e ∈ es) {what : String}
    (hk : e.kind = .expected what) :
    (∃ v, Names what v) ∧ ∀ t ∈ toks, t.sourceRange = e.sourceRange → ¬ Names what t.variant := by
  have hl := (tokenize_iff hT hS source toks).mp ht
  obtain ⟨pos, hpos, hr, hv, hn⟩ := (parse_errors_ok h e he).2.1 what hk
  refine ⟨hv, ?_⟩
  intro t htm hrt
  obtain ⟨i, hi, rfl⟩ := List.getElem_of_mem htm
  have h1 := token_at hl hr
  have h2 := token_at hl (pos := i) (e := e) (by
    rw [← hrt]; unfold tokenSourceRange; rw [List.getElem?_eq_getElem hi])
  rw [h1, List.getElem?_eq_getElem hi] at h2
  exact hn _ h2

/-- **C97 (what is printed).** Without colours, what is printed if loading fails contains, for each such error, a line with the path of
the file and a message as above. -/
theorem C97_printed {T : CharTable} (hT : T.Ascii) (hS : T.SpaceApart) {fs : FileSystem} {fuel : Nat} {path : FPath} {E : LoadEnv}
    {name : Str} (hE : loadEnv fs path = some (E, name)) {es : List LoadErr} (h : loadSchemas T fs fuel path = .err es) (W : Wording) :
    ∃ out, loadText T .plain W E es = some out ∧
      ∀ p xs, .syntactic p xs ∈ es → ∀ x ∈ xs, ∃ source m, E.fs.read (E.base.join (.rel p)) = some source ∧
        (∀ what, x.kind = .expected what → SaysExpected T .plain source what.toList x.sourceRange m) ∧ plainHead p m <:+: out := by
  obtain ⟨out, h1, -, h2⟩ := C93_syntax hT hS hE h W
  refine ⟨out, h1, ?_⟩
  intro p xs hp x hx
  obtain ⟨source, hr, hin⟩ := h2 p xs hp x hx
  obtain ⟨p', -, hprob⟩ := C60_sound hE h _ hp
  cases hprob with
  | syntactic c toks xs hr' ht hps =>
    rw [hr'] at hr
    cases hr
    exact ⟨source, _, hr', fun what hk => by
      obtain ⟨⟨v, hv⟩, -⟩ := C97_not_there hT hS ht hps hx hk
      have := C97_expected hT hS ht hps hx hk .plain
      rwa [plain_expectation hv] at this, hin⟩

/-! ## Examples -/

/-- The errors of the parser with their messages. -/
def messagesOf (src : String) : List Str :=
  match tokenize asciiTable src.toList with
  | .error _ => []
  | .ok toks =>
    match parse asciiTable toks with
    | .err es => es.map (fun e => e.message .plain (tokensIn asciiTable src.toList))
    | _ => []

/-- All cases occur: the end of the file; a number with zeros in front; a name with `$`; a symbol; a comment. -/
theorem exampleMessages :
    messagesOf "struct Foo" = ["Expected `{` at the end of the file.".toList] ∧
    messagesOf "struct 007 {}" = ["Expected a name for the struct, but encountered `7`.".toList] ∧
    messagesOf "$foo" = ["Expected a declaration, but encountered `foo`.".toList] ∧
    messagesOf "struct Foo {} }" = ["Expected a declaration, but encountered `}`.".toList] ∧
    messagesOf "struct Foo {deleted # hi\n}" = ["Expected `}`, but encountered `# hi\n`.".toList] := by
  decide +kernel

/-- "a type" stands for a name only: after an import, a reserved word which is a type is not what was expected. -/
theorem C97_type_witness :
    messagesOf "struct Foo { x: bar.Bool = 0 }" = ["Expected a type, but encountered `Bool`.".toList] ∧
    messagesOf "struct Foo { optional asymmetric x = 0 }" = ["Expected a field, but encountered `asymmetric`.".toList] := by
  decide +kernel

end Typical
