import Verif.Spec.Format
import Verif.Front.PrintLemmas
import Verif.Front.ParserComplete

/-!
# Lexing and parsing formatted text
-/

namespace Typical

/-! ## Pieces of text -/

theorem lexes_gap {T : CharTable} {i : Nat} {g s : Str} {ts : List Token} (hg : ∀ c ∈ g, T.isWhitespace c = true)
    (h : Lexes T (i + utf8Len g) s ts) : Lexes T i (g ++ s) ts := by
  cases h with
  | nil h =>
    refine .nil ?_
    intro c hc
    rcases List.mem_append.mp hc with hc | hc
    · exact hg c hc
    · exact h c hc
  | @cons _ gap text rest v ts hgap hne hsp hends h =>
    have e : g ++ (gap ++ text ++ rest) = (g ++ gap) ++ text ++ rest := by simp
    have e2 : i + utf8Len g + utf8Len gap = i + utf8Len (g ++ gap) := by rw [utf8Len_append]; omega
    rw [e, e2]
    rw [e2] at h
    refine .cons ?_ hne hsp hends h
    intro c hc
    rcases List.mem_append.mp hc with hc | hc
    · exact hg c hc
    · exact hgap c hc

theorem lexes_tok {T : CharTable} {i : Nat} {text rest : Str} {v : TokVariant} {ts : List Token} (hsp : Spells T text v)
    (hends : Ends T v text rest) (h : Lexes T (i + utf8Len text) rest ts) :
    Lexes T i (text ++ rest) (⟨⟨i, i + utf8Len text⟩, v⟩ :: ts) := by
  have := Lexes.cons (i := i) (gap := []) (by simp) (spells_ne_nil hsp) hsp hends (by simpa [utf8Len] using h)
  simpa [utf8Len] using this

/-- The next character, if any, is one of the separators the formatter uses. -/
def SepFirst (s : Str) : Prop := ∀ c, s.head? = some c → c ∈ [' ', ':', '.', ']', '\n']

theorem sep_char {T : CharTable} (hT : T.Ascii) {c : Char} (h : c ∈ [' ', ':', '.', ']', '\n']) :
    ¬ T.WordChar c ∧ c.isDigit = false := by
  have hlt : c.toNat < 128 ∧ c.isAlphanum = false ∧ c ≠ '_' ∧ c.isDigit = false := by
    simp at h
    rcases h with rfl | rfl | rfl | rfl | rfl <;> decide
  refine ⟨?_, hlt.2.2.2⟩
  rintro (h | h)
  · rw [hT.isAlphanumeric c hlt.1, hlt.2.1] at h; cases h
  · exact hlt.2.2.1 h

theorem ends_sep {T : CharTable} (hT : T.Ascii) {v : TokVariant} {text rest : Str} (hv : ∀ ps, v ≠ .comment ps)
    (hr : SepFirst rest) : Ends T v text rest := by
  have hw : ∀ c, rest.head? = some c → ¬ T.WordChar c := fun c hc => (sep_char hT (hr c hc)).1
  have hd : ∀ c, rest.head? = some c → c.isDigit = false := fun c hc => (sep_char hT (hr c hc)).2
  cases v with
  | comment ps => exact absurd rfl (hv ps)
  | integer n => exact hd
  | path p => trivial
  | _ => exact .inr hw

theorem sepFirst_cons {c : Char} {s : Str} (h : c ∈ [' ', ':', '.', ']', '\n']) : SepFirst (c :: s) := by
  intro d hd
  simp only [List.head?_cons, Option.some.injEq] at hd
  subst hd; exact h

theorem space_ws {T : CharTable} (hT : T.Ascii) : T.isWhitespace ' ' = true := by
  rw [hT.isWhitespace ' ' (by decide)]; decide

theorem newline_ws {T : CharTable} (hT : T.Ascii) : T.isWhitespace '\n' = true := by
  rw [hT.isWhitespace '\n' (by decide)]; decide

/-- A symbol. -/
theorem lexes_symbol {T : CharTable} {i : Nat} {c : Char} {rest : Str} {v : TokVariant} {ts : List Token}
    (hc : (c, v) ∈ symbolTable) (h : Lexes T (i + 1) rest ts) : ∃ t, t.variant = v ∧ t.sourceRange = ⟨i, i + 1⟩ ∧
    Lexes T i (c :: rest) (t :: ts) := by
  have h1 : utf8Len [c] = 1 := by simp [utf8Len, (symbol_ascii hc).2.2.2.2.2.2.2.2.2]
  have := lexes_tok (i := i) (rest := rest) (ts := ts) (Spells.symbol (T := T) hc) (by
    have hv : ∀ ps, v ≠ .comment ps := by
      intro ps he; subst he
      simp [symbolTable] at hc
    have hv2 : ∀ n, v ≠ .integer n := by
      intro ps he; subst he
      simp [symbolTable] at hc
    cases v with
    | comment ps => exact absurd rfl (hv ps)
    | integer n => exact absurd rfl (hv2 n)
    | path p => trivial
    | _ => exact .inl ⟨c, hc, rfl⟩) (by rw [h1]; exact h)
  rw [h1] at this
  exact ⟨_, rfl, rfl, this⟩

theorem lexes_keyword {T : CharTable} (hT : T.Ascii) {i : Nat} {k : String} {rest : Str} {v : TokVariant} {ts : List Token}
    (hk : (k, v) ∈ keywordTable) (hr : SepFirst rest) (h : Lexes T (i + utf8Len k.toList) rest ts) :
    ∃ t, t.variant = v ∧ t.sourceRange = ⟨i, i + utf8Len k.toList⟩ ∧ Lexes T i (k.toList ++ rest) (t :: ts) := by
  have hv : ∀ ps, v ≠ .comment ps := by
    intro ps he; subst he
    simp [keywordTable] at hk
  exact ⟨_, rfl, rfl, lexes_tok (.keyword hk) (ends_sep hT hv hr) h⟩

theorem lexes_name {T : CharTable} (hT : T.Ascii) {i : Nat} {w rest : Str} {ts : List Token}
    (hw : PlainName T w) (hr : SepFirst rest) (h : Lexes T (i + utf8Len w) rest ts) :
    ∃ t, t.variant = .identifier (Identifier.ofStr T w) ∧ t.sourceRange = ⟨i, i + utf8Len w⟩ ∧
      Lexes T i (w ++ rest) (t :: ts) :=
  ⟨_, rfl, rfl, lexes_tok (spells_plain hw) (ends_sep hT (by simp) hr) h⟩

theorem lexes_integer {T : CharTable} (hT : T.Ascii) {i n : Nat} {rest : Str} {ts : List Token}
    (hn : n < 2 ^ 64) (hr : SepFirst rest) (h : Lexes T (i + utf8Len (showNat n)) rest ts) :
    ∃ t, t.variant = .integer n ∧ Lexes T i (showNat n ++ rest) (t :: ts) :=
  ⟨_, rfl, lexes_tok (spells_integer hn) (ends_sep hT (by simp) hr) h⟩

theorem lexes_space {T : CharTable} (hT : T.Ascii) {i : Nat} {rest : Str} {ts : List Token}
    (h : Lexes T (i + 1) rest ts) : Lexes T i (' ' :: rest) ts :=
  lexes_gap (g := [' ']) (by simpa using space_ws hT) h

theorem lexes_newline {T : CharTable} (hT : T.Ascii) {i : Nat} {rest : Str} {ts : List Token}
    (h : Lexes T (i + 1) rest ts) : Lexes T i ('\n' :: rest) ts :=
  lexes_gap (g := ['\n']) (by simpa using newline_ws hT) h

theorem indent_ws {T : CharTable} (hT : T.Ascii) : ∀ c ∈ indent4, T.isWhitespace c = true := by
  intro c hc
  have : c = ' ' := by simpa [indent4] using hc
  rw [this]; exact space_ws hT

theorem lexes_indent {T : CharTable} (hT : T.Ascii) {i : Nat} {rest : Str} {ts : List Token}
    (h : Lexes T (i + 4) rest ts) : Lexes T i (indent4 ++ rest) ts :=
  lexes_gap (indent_ws hT) h

/-! ## Comments -/

/-- The raw lines of a comment, after the `#`. -/
def rawLines (F : Nat → Str → Str) (w : Nat) : List Str → List Str
  | [] => []
  | [p] => (strLines (F w p)).map (fun l => ' ' :: l)
  | p :: q :: ps => (strLines (F w p)).map (fun l => ' ' :: l) ++ [] :: rawLines F w (q :: ps)

theorem writeParagraph_raw (F : Nat → Str → Str) (ind p : Str) : writeParagraph F ind p =
    ((strLines (F (79 - ind.length - 2) p)).map (fun l => ' ' :: l)).flatMap (fun r => ind ++ '#' :: r ++ ['\n']) := by
  unfold writeParagraph
  rw [List.flatMap_map]
  congr 1
  funext l
  simp

theorem writeComment_raw (F : Nat → Str → Str) (ind : Str) : ∀ ps : List Str, writeComment F ind ps =
    (rawLines F (79 - ind.length - 2) ps).flatMap (fun r => ind ++ '#' :: r ++ ['\n'])
  | [] => rfl
  | [p] => by rw [writeComment, rawLines, writeParagraph_raw]
  | p :: q :: ps => by
    rw [writeComment, rawLines, writeParagraph_raw, writeComment_raw F ind (q :: ps)]
    simp

theorem splitOn_no_sep (sep : Char) (s : Str) : ∀ l ∈ splitOn sep s, sep ∉ l := by
  induction s with
  | nil => intro l hl; simp [splitOn] at hl; subst hl; simp
  | cons c s ih =>
    intro l hl
    unfold splitOn at hl
    split at hl
    · rcases List.mem_cons.mp hl with rfl | hl
      · simp
      · exact ih l hl
    · rename_i hc
      split at hl
      · simp at hl; subst hl; simpa using fun h => hc h.symm
      · rename_i w ws hw
        rcases List.mem_cons.mp hl with rfl | hl
        · have := ih w (by rw [hw]; simp)
          simp only [List.mem_cons, not_or]
          exact ⟨fun h => hc h.symm, this⟩
        · exact ih l (by rw [hw]; simp [hl])

theorem strLines_no_newline (s : Str) : ∀ l ∈ strLines s, '\n' ∉ l := by
  intro l hl
  unfold strLines at hl
  dsimp only at hl
  rcases List.mem_append.mp hl with hl | hl
  · obtain ⟨l', hl', rfl⟩ := List.mem_map.mp hl
    have := splitOn_no_sep '\n' s l' ((List.dropLast_sublist _).subset hl')
    unfold stripCr
    split
    · exact fun h => this ((List.dropLast_sublist _).subset h)
    · exact this
  · rw [List.mem_filter] at hl
    refine splitOn_no_sep '\n' s l (List.mem_of_getLast? ?_)
    simpa using hl.1

theorem rawLines_no_newline (F : Nat → Str → Str) (w : Nat) : ∀ ps : List Str, ∀ r ∈ rawLines F w ps, '\n' ∉ r
  | [], r, hr => by cases hr
  | [p], r, hr => by
    rw [rawLines] at hr
    obtain ⟨l, hl, rfl⟩ := List.mem_map.mp hr
    have := strLines_no_newline _ l hl
    simpa using this
  | p :: q :: ps, r, hr => by
    rw [rawLines] at hr
    rcases List.mem_append.mp hr with hr | hr
    · obtain ⟨l, hl, rfl⟩ := List.mem_map.mp hr
      have := strLines_no_newline _ l hl
      simpa using this
    · rcases List.mem_cons.mp hr with rfl | hr
      · simp
      · exact rawLines_no_newline F w (q :: ps) r hr

theorem commentText_raw {T : CharTable} {ind : Str} (hind : ∀ c ∈ ind, T.isWhitespace c = true ∧ c ≠ '\n') :
    ∀ (r : Str) (rs : List Str), (∀ x ∈ r :: rs, '\n' ∉ x) → ∃ body,
      (r :: rs).flatMap (fun r => ind ++ '#' :: r ++ ['\n']) = ind ++ body ++ ['\n'] ∧
      CommentText T body ((r :: rs).map (trim T))
  | r, [], h => ⟨'#' :: r, by simp, .last (h r (by simp)) (trim_spec T r)⟩
  | r, r' :: rs, h => by
    obtain ⟨body, h1, h2⟩ := commentText_raw hind r' rs (fun x hx => h x (by simp [hx]))
    refine ⟨'#' :: r ++ '\n' :: ind ++ body, ?_, ?_⟩
    · rw [List.flatMap_cons, h1]; simp
    · exact .more (h r (by simp)) (trim_spec T r) hind h2

theorem trim_space {T : CharTable} (hT : T.Ascii) (l : Str) : trim T (' ' :: l) = trim T l := by
  unfold trim
  rw [List.dropWhile_cons, if_pos (space_ws hT)]

theorem trim_nil (T : CharTable) : trim T [] = [] := rfl

theorem paragraphs_raw {T : CharTable} (hT : T.Ascii) {F : Nat → Str → Str} {w : Nat} : ∀ ps : List Str,
    (∀ p ∈ ps, Fillable T F w p) → Paragraphs ((rawLines F w ps).map (trim T)) (ps.map (refill T F w))
  | [], _ => .nil
  | [p], h => by
    obtain ⟨h1, h2⟩ := h p (by simp)
    have e : ((strLines (F w p)).map (fun l => ' ' :: l)).map (trim T) = (strLines (F w p)).map (trim T) := by
      rw [List.map_map]
      congr 1
      funext l
      exact trim_space hT l
    rw [rawLines, e]
    have := Paragraphs.run (run := (strLines (F w p)).map (trim T)) (ls := []) (by simpa using h1)
      (by intro l hl; obtain ⟨l', hl', rfl⟩ := List.mem_map.mp hl; exact h2 l' hl') (by simp) .nil
    simpa [refill] using this
  | p :: q :: ps, h => by
    obtain ⟨h1, h2⟩ := h p (by simp)
    have e : ((strLines (F w p)).map (fun l => ' ' :: l)).map (trim T) = (strLines (F w p)).map (trim T) := by
      rw [List.map_map]
      congr 1
      funext l
      exact trim_space hT l
    rw [rawLines, List.map_append, e, List.map_cons, trim_nil]
    have ih := paragraphs_raw hT (q :: ps) (fun x hx => h x (by simp [hx]))
    exact Paragraphs.run (run := (strLines (F w p)).map (trim T)) (by simpa using h1)
      (by intro l hl; obtain ⟨l', hl', rfl⟩ := List.mem_map.mp hl; exact h2 l' hl') (by simp) (.blank ih)

/-- The text does not continue a comment of the line before. -/
def NoHash (T : CharTable) (s : Str) : Prop :=
  ∃ b r, s = b ++ r ∧ (∀ c ∈ b, T.isWhitespace c = true ∧ c ≠ '\n') ∧
    ∀ c, r.head? = some c → c ≠ '#' ∧ (T.isWhitespace c = true → c = '\n')

theorem lexes_comment {T : CharTable} (hT : T.Ascii) {F : Nat → Str → Str} {ind : Str}
    (hind : ∀ c ∈ ind, T.isWhitespace c = true ∧ c ≠ '\n') {w : Nat} (hw : w = 79 - ind.length - 2) {ps : List Str}
    (hne : ps ≠ []) (hps : ∀ p ∈ ps, Fillable T F w p) {i : Nat} {rest : Str} {ts : List Token} (hr : NoHash T rest)
    (h : Lexes T (i + utf8Len (writeComment F ind ps)) rest ts) : ∃ t, t.variant = .comment (ps.map (refill T F w)) ∧
      t.sourceRange.start = i + utf8Len ind ∧ t.sourceRange.stop + 1 = i + utf8Len (writeComment F ind ps) ∧
      Lexes T i (writeComment F ind ps ++ rest) (t :: ts) := by
  subst hw
  rw [writeComment_raw] at h ⊢
  have hraw : rawLines F (79 - ind.length - 2) ps ≠ [] := by
    match ps, hne, hps with
    | [], hne, _ => exact absurd rfl hne
    | [p], _, hps => simpa [rawLines] using (hps p (by simp)).1
    | p :: q :: ps, _, _ => simp [rawLines]
  have hpar := paragraphs_raw hT ps hps
  have hnl := rawLines_no_newline F (79 - ind.length - 2) ps
  generalize rawLines F (79 - ind.length - 2) ps = rs at h hraw hpar hnl ⊢
  cases rs with
  | nil => exact absurd rfl hraw
  | cons r rs =>
    obtain ⟨body, e1, hct⟩ := commentText_raw hind r rs hnl
    rw [e1] at h ⊢
    have hsp := Spells.comment hct hpar
    obtain ⟨b, r', hrest, hb, hr'⟩ := hr
    have hends : Ends T (.comment (ps.map (refill T F (79 - ind.length - 2)))) body ('\n' :: rest) := by
      refine .inr ⟨b, r', by rw [hrest]; rfl, hb, hr'⟩
    have l2 : utf8Len (ind ++ body ++ ['\n']) = utf8Len ind + utf8Len body + 1 := by
      rw [utf8Len_append, utf8Len_append]; rfl
    rw [l2] at h ⊢
    have h1 : Lexes T (i + utf8Len ind + utf8Len body) ('\n' :: rest) ts := by
      refine lexes_newline hT ?_
      have e3 : i + (utf8Len ind + utf8Len body + 1) = i + utf8Len ind + utf8Len body + 1 := by omega
      rw [e3] at h; exact h
    have h2 := lexes_gap (fun c hc => (hind c hc).1) (lexes_tok hsp hends h1)
    refine ⟨_, rfl, rfl, ?_, by simpa using h2⟩
    dsimp only
    omega

/-! ## Types -/

/-- What a type becomes by formatting and parsing. -/
inductive TypeBack (T : CharTable) : TypeVariant → TypeVariant → Prop
  | array {r r' a b} : TypeBack T a b → TypeBack T (.array r a) (.array r' b)
  | bare {n} : TypeBack T (.custom none n) (.custom none (Identifier.ofStr T (n.pascalCase T)))
  | qualified {m n} : TypeBack T (.custom (some m) n)
      (.custom (some (Identifier.ofStr T m.snakeCase)) (Identifier.ofStr T (n.pascalCase T)))
  | bool : TypeBack T .bool .bool
  | bytes : TypeBack T .bytes .bytes
  | f64 : TypeBack T .f64 .f64
  | s64 : TypeBack T .s64 .s64
  | string : TypeBack T .string .string
  | u64 : TypeBack T .u64 .u64
  | unit : TypeBack T .unit .unit

/-- Names are plain. -/
def SnakePlain (T : CharTable) (n : Identifier) : Prop := PlainName T n.snakeCase
def PascalPlain (T : CharTable) (n : Identifier) : Prop := PlainName T (n.pascalCase T)

theorem keyword_type {T : CharTable} (hT : T.Ascii) {k : String} {v : TokVariant} {ty : TypeVariant}
    (hk : (k, v) ∈ keywordTable) (hv : (v, ty) ∈ keywordTypes) (hb : TypeBack T ty ty) (i : Nat) (rest : Str)
    (ts : List Token) (hr : SepFirst rest) (h : Lexes T (i + utf8Len k.toList) rest ts) :
    ∃ us ty', TypeSyntax us ty' ∧ TypeBack T ty ty'.variant ∧ Lexes T i (k.toList ++ rest) (us ++ ts) := by
  obtain ⟨t, ht, -, hl⟩ := lexes_keyword hT hk hr h
  exact ⟨[t], _, .keyword (by rw [ht]; exact hv), hb, hl⟩

theorem lexes_type {T : CharTable} (hT : T.Ascii) : ∀ (ty : TypeVariant), TypeNames (SnakePlain T) (PascalPlain T) ty →
    ∀ (i : Nat) (rest : Str) (ts : List Token), SepFirst rest → Lexes T (i + utf8Len (writeType T ty)) rest ts →
    ∃ us ty', TypeSyntax us ty' ∧ TypeBack T ty ty'.variant ∧ Lexes T i (writeType T ty ++ rest) (us ++ ts)
  | .array r a, hn, i, rest, ts, hr, h => by
    have hlen : utf8Len (writeType T (.array r a)) = 1 + utf8Len (writeType T a) + 1 := by
      rw [writeType, utf8Len_append, utf8Len_append]; rfl
    rw [hlen] at h
    obtain ⟨t2, hv2, -, h2⟩ := lexes_symbol (T := T) (i := i + 1 + utf8Len (writeType T a)) (c := ']') (v := .rightSquare)
      (by simp [symbolTable])
      (by rw [Nat.add_assoc, Nat.add_assoc, ← Nat.add_assoc 1]; exact h)
    obtain ⟨us, ty', h3, h4, h5⟩ := lexes_type hT a hn (i + 1) (']' :: rest) (t2 :: ts) (sepFirst_cons (by simp)) h2
    obtain ⟨t1, hv1, -, h1⟩ := lexes_symbol (T := T) (i := i) (c := '[') (v := .leftSquare) (by simp [symbolTable]) h5
    refine ⟨t1 :: us ++ [t2], _, .array hv1 h3 hv2, .array h4, ?_⟩
    rw [writeType]
    simpa using h1
  | .bool, hn, i, rest, ts, hr, h => keyword_type hT (k := "Bool") (v := .bool) (by simp [keywordTable])
      (by simp [keywordTypes]) .bool i rest ts hr h
  | .bytes, hn, i, rest, ts, hr, h => keyword_type hT (k := "Bytes") (v := .bytes) (by simp [keywordTable])
      (by simp [keywordTypes]) .bytes i rest ts hr h
  | .f64, hn, i, rest, ts, hr, h => keyword_type hT (k := "F64") (v := .f64) (by simp [keywordTable])
      (by simp [keywordTypes]) .f64 i rest ts hr h
  | .s64, hn, i, rest, ts, hr, h => keyword_type hT (k := "S64") (v := .s64) (by simp [keywordTable])
      (by simp [keywordTypes]) .s64 i rest ts hr h
  | .string, hn, i, rest, ts, hr, h => keyword_type hT (k := "String") (v := .string) (by simp [keywordTable])
      (by simp [keywordTypes]) .string i rest ts hr h
  | .u64, hn, i, rest, ts, hr, h => keyword_type hT (k := "U64") (v := .u64) (by simp [keywordTable])
      (by simp [keywordTypes]) .u64 i rest ts hr h
  | .unit, hn, i, rest, ts, hr, h => keyword_type hT (k := "Unit") (v := .unit) (by simp [keywordTable])
      (by simp [keywordTypes]) .unit i rest ts hr h
  | .custom none n, hn, i, rest, ts, hr, h => by
    obtain ⟨t, ht, -, hl⟩ := lexes_name hT hn.2 hr h
    exact ⟨[t], _, .name ht, .bare, hl⟩
  | .custom (some m) n, hn, i, rest, ts, hr, h => by
    have hlen : utf8Len (writeType T (.custom (some m) n)) = utf8Len m.snakeCase + 1 + utf8Len (n.pascalCase T) := by
      rw [writeType, utf8Len_append, utf8Len_append]; rfl
    rw [hlen] at h
    obtain ⟨t3, ht3, -, h3⟩ := lexes_name (i := i + utf8Len m.snakeCase + 1) hT hn.2 hr
      (by rw [Nat.add_assoc, Nat.add_assoc, ← Nat.add_assoc (utf8Len m.snakeCase)]; exact h)
    obtain ⟨t2, hv2, -, h2⟩ := lexes_symbol (T := T) (i := i + utf8Len m.snakeCase) (c := '.') (v := .dot)
      (by simp [symbolTable]) h3
    obtain ⟨t1, ht1, -, h1⟩ := lexes_name hT (hn.1 m rfl) (sepFirst_cons (by simp)) h2
    refine ⟨[t1, t2, t3], _, .qualified ht1 hv2 ht3, .qualified, ?_⟩
    rw [writeType]
    simpa using h1

end Typical
