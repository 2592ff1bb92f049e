import Verif.Front.TokenizerLemmas

/-!
# The tokenizer computes the division of the source into tokens
-/

namespace Typical

/-- What follows a comment. -/
def CommentEnds (T : CharTable) (rest : Str) : Prop :=
  rest = [] ∨ ∃ b r, rest = '\n' :: b ++ r ∧ (∀ c ∈ b, T.isWhitespace c = true ∧ c ≠ '\n') ∧
      ∀ c, r.head? = some c → c ≠ '#' ∧ (T.isWhitespace c = true → c = '\n')

theorem Ascii.newline {T : CharTable} (hT : T.Ascii) : T.isWhitespace '\n' = true := by
  rw [hT.isWhitespace '\n' (by decide)]; decide

theorem scanComment_sound {T : CharTable} (hT : T.Ascii) : ∀ (fuel pos : Nat) (s : Str), s.length < fuel →
    ∃ text gap, '#' :: s = text ++ gap ++ (scanComment T fuel pos s).rest ∧
      CommentText T text (scanComment T fuel pos s).lines ∧
      (scanComment T fuel pos s).lineEnd + 1 = pos + utf8Len text ∧
      (scanComment T fuel pos s).pos = (scanComment T fuel pos s).lineEnd + utf8Len gap ∧
      (∀ c ∈ gap, T.isWhitespace c = true) ∧ CommentEnds T (gap ++ (scanComment T fuel pos s).rest)
  | 0, _, _, h => by simp at h
  | fuel + 1, pos, s, hf => by
    have hl : '\n' ∉ s.takeWhile (fun d => d != '\n') := by
      intro h
      have := takeWhile_all _ _ _ h
      simp at this
    have e1 : s = s.takeWhile (fun d => d != '\n') ++ s.dropWhile (fun d => d != '\n') :=
      (List.takeWhile_append_dropWhile).symm
    have hd := dropWhile_head (fun d => d != '\n') s
    have hash : ('#' : Char).utf8Size = 1 := rfl
    have nl : ('\n' : Char).utf8Size = 1 := rfl
    rw [scanComment]
    dsimp only
    generalize s.takeWhile (fun d => d != '\n') = line at *
    generalize s.dropWhile (fun d => d != '\n') = after at *
    match after with
    | [] =>
      refine ⟨'#' :: line, [], ?_, .last hl (trim_spec T line), ?_, ?_, ?_, .inl rfl⟩
      · simp [e1]
      · simp [utf8Len, hash]; omega
      · simp [utf8Len]
      · simp
    | c0 :: r =>
      have hc0 : c0 = '\n' := by
        have := hd c0 rfl
        simpa using this
      subst hc0
      dsimp only
      have e2 : r = r.takeWhile (fun d => T.isWhitespace d && d != '\n') ++
          r.dropWhile (fun d => T.isWhitespace d && d != '\n') := (List.takeWhile_append_dropWhile).symm
      have hb := takeWhile_all (fun d => T.isWhitespace d && d != '\n') r
      have hd2 := dropWhile_head (fun d => T.isWhitespace d && d != '\n') r
      generalize r.takeWhile (fun d => T.isWhitespace d && d != '\n') = blank at *
      generalize r.dropWhile (fun d => T.isWhitespace d && d != '\n') = after2 at *
      have hb' : ∀ c ∈ blank, T.isWhitespace c = true ∧ c ≠ '\n' := by
        intro c hc
        have := hb c hc
        simpa using this
      have hgap : ∀ c ∈ '\n' :: blank, T.isWhitespace c = true := by
        intro c hc
        rcases List.mem_cons.mp hc with hc | hc
        · subst hc; exact Ascii.newline hT
        · exact (hb' c hc).1
      match after2 with
      | [] =>
        refine ⟨'#' :: line, '\n' :: blank, ?_, .last hl (trim_spec T line), ?_, ?_, hgap, .inr ⟨blank, [], ?_, hb', ?_⟩⟩
        · rw [e1, e2]; simp
        · simp [utf8Len, hash]; omega
        · simp [utf8Len, nl]; omega
        · simp
        · intro c hc; simp at hc
      | c1 :: r' =>
        dsimp only
        by_cases hc1 : c1 = '#'
        · subst hc1
          rw [if_pos rfl]
          have hlen : r'.length < fuel := by
            have h1 := congrArg List.length e1
            have h2 := congrArg List.length e2
            simp only [List.length_append, List.length_cons] at h1 h2
            omega
          obtain ⟨text, gap, ht, hct, hle, hp, hg, hends⟩ :=
            scanComment_sound hT fuel (pos + utf8Len line + 1 + utf8Len blank + 1) r' hlen
          refine ⟨'#' :: line ++ '\n' :: blank ++ text, gap, ?_, .more hl (trim_spec T line) hb' hct, ?_, hp, hg, hends⟩
          · rw [e1, e2, ht]; simp
          · dsimp only
            rw [hle]
            simp [utf8Len, utf8Len_append, hash, nl]; omega
        · rw [if_neg hc1]
          refine ⟨'#' :: line, '\n' :: blank, ?_, .last hl (trim_spec T line), ?_, ?_, hgap,
            .inr ⟨blank, c1 :: r', ?_, hb', ?_⟩⟩
          · rw [e1, e2]; simp
          · simp [utf8Len, hash]; omega
          · simp [utf8Len, nl]; omega
          · simp
          · intro c hc
            simp at hc
            subst hc
            refine ⟨hc1, fun hw => ?_⟩
            have := hd2 c1 rfl
            simpa [hw] using this

theorem scanComment_complete {T : CharTable} (hT : T.Ascii) {text : Str} {us : List Str} (h : CommentText T text us) :
    ∀ (rest : Str), CommentEnds T rest → ∀ (w : Str), text = '#' :: w → ∀ (fuel pos : Nat), text.length ≤ fuel →
    ∃ gap rest', rest = gap ++ rest' ∧ (∀ c ∈ gap, T.isWhitespace c = true) ∧
      scanComment T fuel pos (w ++ rest) = ⟨us, pos + utf8Len w, pos + utf8Len w + utf8Len gap, rest'⟩ := by
  have nl : ('\n' : Char).utf8Size = 1 := rfl
  have hash : ('#' : Char).utf8Size = 1 := rfl
  have nonl : ∀ l : Str, '\n' ∉ l → ∀ c ∈ l, (c != '\n') = true := by
    intro l hl c hc
    simp only [bne_iff_ne, ne_eq]
    intro h; subst h; exact hl hc
  induction h with
  | @last l u hl hu =>
    intro rest hends w hw fuel pos hf
    obtain ⟨-, rfl⟩ := List.cons.inj hw
    cases fuel with
    | zero => simp at hf
    | succ fuel =>
      rcases hends with rfl | ⟨b, r, rfl, hb, hr⟩
      · refine ⟨[], [], rfl, by simp, ?_⟩
        have t1 : (l ++ []).takeWhile (fun d => d != '\n') = l := takeWhile_exact _ (nonl l hl) (by simp)
        have d1 : (l ++ []).dropWhile (fun d => d != '\n') = [] := dropWhile_exact _ (nonl l hl) (by simp)
        rw [scanComment]
        dsimp only
        rw [t1, d1]
        simp [hu.eq, utf8Len]
      · have hgap : ∀ c ∈ '\n' :: b, T.isWhitespace c = true := by
          intro c hc
          rcases List.mem_cons.mp hc with hc | hc
          · subst hc; exact Ascii.newline hT
          · exact (hb c hc).1
        refine ⟨'\n' :: b, r, rfl, hgap, ?_⟩
        have t1 : (l ++ ('\n' :: b ++ r)).takeWhile (fun d => d != '\n') = l := takeWhile_exact _ (nonl l hl) (by simp)
        have d1 : (l ++ ('\n' :: b ++ r)).dropWhile (fun d => d != '\n') = '\n' :: b ++ r :=
          dropWhile_exact _ (nonl l hl) (by simp)
        have hb2 : ∀ c ∈ b, (T.isWhitespace c && c != '\n') = true := by
          intro c hc; have := hb c hc; simpa using this
        have hr2 : ∀ c, r.head? = some c → (T.isWhitespace c && c != '\n') = false := by
          intro c hc
          have := (hr c hc).2
          cases hw : T.isWhitespace c with
          | false => rfl
          | true => simp [this hw]
        have t2 : (b ++ r).takeWhile (fun d => T.isWhitespace d && d != '\n') = b := takeWhile_exact _ hb2 hr2
        have d2 : (b ++ r).dropWhile (fun d => T.isWhitespace d && d != '\n') = r := dropWhile_exact _ hb2 hr2
        rw [scanComment]
        dsimp only
        rw [t1, d1]
        dsimp only [List.cons_append]
        rw [t2, d2]
        cases r with
        | nil => simp [hu.eq, utf8Len, nl]; omega
        | cons c r =>
          have := (hr c rfl).1
          simp [hu.eq, utf8Len, nl, this]; omega
  | @more l u b t us hl hu hb ht ih =>
    intro rest hends w hw fuel pos hf
    have hw' : l ++ '\n' :: b ++ t = w := by
      simp only [List.cons_append, List.append_assoc] at hw ⊢
      exact (List.cons.inj hw).2
    subst hw'
    have htw : ∃ w', t = '#' :: w' := by cases ht <;> exact ⟨_, rfl⟩
    obtain ⟨w', hw2⟩ := htw
    subst hw2
    cases fuel with
    | zero => simp at hf
    | succ fuel =>
      obtain ⟨gap, rest', hrest, hgap, hscan⟩ := ih rest hends w' rfl fuel
        (pos + utf8Len l + 1 + utf8Len b + 1) (by simp at hf ⊢; omega)
      refine ⟨gap, rest', hrest, hgap, ?_⟩
      have e : l ++ '\n' :: b ++ '#' :: w' ++ rest = l ++ ('\n' :: (b ++ ('#' :: (w' ++ rest)))) := by simp
      have t1 : (l ++ ('\n' :: (b ++ ('#' :: (w' ++ rest))))).takeWhile (fun d => d != '\n') = l :=
        takeWhile_exact _ (nonl l hl) (by simp)
      have d1 : (l ++ ('\n' :: (b ++ ('#' :: (w' ++ rest))))).dropWhile (fun d => d != '\n') =
          '\n' :: (b ++ ('#' :: (w' ++ rest))) := dropWhile_exact _ (nonl l hl) (by simp)
      have hb2 : ∀ c ∈ b, (T.isWhitespace c && c != '\n') = true := by
        intro c hc; have := hb c hc; simpa using this
      have hhash : T.isWhitespace '#' = false := by rw [hT.isWhitespace '#' (by decide)]; decide
      have hr2 : ∀ c, ('#' :: (w' ++ rest)).head? = some c → (T.isWhitespace c && c != '\n') = false := by
        intro c hc
        simp at hc
        subst hc
        simp [hhash]
      have t2 : (b ++ ('#' :: (w' ++ rest))).takeWhile (fun d => T.isWhitespace d && d != '\n') = b :=
        takeWhile_exact _ hb2 hr2
      have d2 : (b ++ ('#' :: (w' ++ rest))).dropWhile (fun d => T.isWhitespace d && d != '\n') = '#' :: (w' ++ rest) :=
        dropWhile_exact _ hb2 hr2
      rw [e, scanComment]
      dsimp only
      rw [t1, d1]
      dsimp only
      rw [t2, d2]
      dsimp only
      rw [if_pos rfl, hscan]
      simp only [hu.eq, utf8Len_append, utf8Len_cons, nl, hash, CommentScan.mk.injEq, true_and, and_true]
      omega

/-! ## One step -/

/-- What one step of the tokenizer does. -/
structure StepSpec (T : CharTable) (i : Nat) (input : Str) (r : LexResult) (text gap : Str) : Prop where
  split : input = text ++ gap ++ r.rest
  nonempty : text ≠ []
  pos : r.pos = i + utf8Len text + utf8Len gap
  gapBlank : ∀ c ∈ gap, T.isWhitespace c = true
  token : ∀ t, r.token = some t → r.errors = [] →
    t.sourceRange = ⟨i, i + utf8Len text⟩ ∧ Spells T text t.variant ∧ Ends T t.variant text (gap ++ r.rest)
  blank : r.token = none → r.errors = [] → ∀ c ∈ text, T.isWhitespace c = true
  errors : ∀ e ∈ r.errors, ∃ a b, text = a ++ b ∧ e.sourceRange = ⟨i, i + utf8Len a⟩

theorem ends_symbol {T : CharTable} {c : Char} {v : TokVariant} (h : (c, v) ∈ symbolTable) (rest : Str) :
    Ends T v [c] rest := by
  have h' := h
  simp only [symbolTable, List.mem_cons, Prod.mk.injEq, List.not_mem_nil, or_false] at h
  rcases h with ⟨rfl, rfl⟩ | ⟨rfl, rfl⟩ | ⟨rfl, rfl⟩ | ⟨rfl, rfl⟩ | ⟨rfl, rfl⟩ | ⟨rfl, rfl⟩ | ⟨rfl, rfl⟩ <;>
    exact .inl ⟨_, h', rfl⟩

theorem ends_word {T : CharTable} {text rest : Str} {v : TokVariant} (hv : (∃ i, v = .identifier i) ∨ ∃ k, (k, v) ∈ keywordTable)
    (h : ∀ c, rest.head? = some c → ¬ T.WordChar c) : Ends T v text rest := by
  rcases hv with ⟨i, rfl⟩ | ⟨k, hk⟩
  · exact .inr h
  · simp only [keywordTable, List.mem_cons, Prod.mk.injEq, List.not_mem_nil, or_false] at hk
    rcases hk with ⟨-, rfl⟩ | ⟨-, rfl⟩ | ⟨-, rfl⟩ | ⟨-, rfl⟩ | ⟨-, rfl⟩ | ⟨-, rfl⟩ | ⟨-, rfl⟩ |
      ⟨-, rfl⟩ | ⟨-, rfl⟩ | ⟨-, rfl⟩ | ⟨-, rfl⟩ | ⟨-, rfl⟩ | ⟨-, rfl⟩ | ⟨-, rfl⟩ <;> exact .inr h

theorem ends_word_inv {T : CharTable} {c : Char} {w rest : Str} {v : TokVariant}
    (hc : ∀ x v, (x, v) ∈ symbolTable → c ≠ x)
    (hv : (∃ i, v = .identifier i) ∨ ∃ k, (k, v) ∈ keywordTable) (h : Ends T v (c :: w) rest) :
    ∀ c, rest.head? = some c → ¬ T.WordChar c := by
  have key : ((∃ x, (x, v) ∈ symbolTable ∧ c :: w = [x]) ∨ ∀ c, rest.head? = some c → ¬ T.WordChar c) := by
    rcases hv with ⟨i, rfl⟩ | ⟨k, hk⟩
    · exact h
    · simp only [keywordTable, List.mem_cons, Prod.mk.injEq, List.not_mem_nil, or_false] at hk
      rcases hk with ⟨-, rfl⟩ | ⟨-, rfl⟩ | ⟨-, rfl⟩ | ⟨-, rfl⟩ | ⟨-, rfl⟩ | ⟨-, rfl⟩ | ⟨-, rfl⟩ |
        ⟨-, rfl⟩ | ⟨-, rfl⟩ | ⟨-, rfl⟩ | ⟨-, rfl⟩ | ⟨-, rfl⟩ | ⟨-, rfl⟩ | ⟨-, rfl⟩ <;> exact h
  rcases key with ⟨x, hx, he⟩ | h
  · exact absurd (List.cons.inj he).1 (hc x v hx)
  · exact h

theorem wordChar_bool (T : CharTable) (c : Char) : (T.isAlphanumeric c || c == '_') = true ↔ T.WordChar c := by
  simp [CharTable.WordChar]

theorem lexWord_sound {T : CharTable} (hT : T.Ascii) (i : Nat) (c : Char) (s : Str)
    (hc : (T.isAlphabetic c || c == '_' || c == '$') = true) :
    StepSpec T i (c :: s) (lexWord T i c s) (c :: s.takeWhile (fun d => T.isAlphanumeric d || d == '_')) [] := by
  have e1 : s = s.takeWhile (fun d => T.isAlphanumeric d || d == '_') ++
      s.dropWhile (fun d => T.isAlphanumeric d || d == '_') := (List.takeWhile_append_dropWhile).symm
  have ht := takeWhile_all (fun d => T.isAlphanumeric d || d == '_') s
  have hd := dropWhile_head (fun d => T.isAlphanumeric d || d == '_') s
  have ht' : ∀ d ∈ s.takeWhile (fun d => T.isAlphanumeric d || d == '_'), T.WordChar d :=
    fun d hd => (wordChar_bool T d).mp (ht d hd)
  have hd' : ∀ d, (s.dropWhile (fun d => T.isAlphanumeric d || d == '_')).head? = some d → ¬ T.WordChar d := by
    intro d hh hw
    have h1 := hd d hh
    have h2 := (wordChar_bool T d).mpr hw
    exact absurd (h1.symm.trans h2) (by decide)
  unfold lexWord
  dsimp only
  generalize s.takeWhile (fun d => T.isAlphanumeric d || d == '_') = tail at *
  generalize s.dropWhile (fun d => T.isAlphanumeric d || d == '_') = rest at *
  cases hk : keyword? (c :: tail) with
  | some v =>
    obtain ⟨k, hkm, hke⟩ := (keyword?_iff _ _).mp hk
    refine ⟨by simp [e1], by simp, by simp [utf8Len], by simp, ?_, ?_, by simp⟩
    · intro t ht0 _
      simp at ht0
      subst ht0
      refine ⟨rfl, ?_, ends_word (.inr ⟨k, hkm⟩) hd'⟩
      rw [hke]; exact .keyword hkm
    · intro h; cases h
  | none =>
    have hnk := (keyword?_none _).mp hk
    refine ⟨by simp [e1], by simp, by simp [utf8Len], by simp, ?_, ?_, ?_⟩
    · intro t ht0 herr
      simp only [Option.some.injEq] at ht0
      subst ht0
      refine ⟨rfl, ?_, ends_word (.inl ⟨_, rfl⟩) hd'⟩
      dsimp only at herr ⊢
      have h12 := List.append_eq_nil_iff.mp herr
      by_cases hd0 : c = '$'
      · subst hd0
        simp only [if_true] at h12 ⊢
        cases tail with
        | nil => simp at h12
        | cons d w =>
          have hne : d ≠ '_' := by
            intro h; subst h; simp at h12
          refine .raw ?_ hne (fun x hx => ht' x (by simp [hx]))
          rcases ht' d (by simp) with h | h
          · exact h
          · exact absurd h hne
      · simp only [if_neg hd0] at h12 ⊢
        have hne : c ≠ '_' := by
          intro h; subst h; simp at h12
        refine .identifier ?_ ht' hnk
        simpa [hne, hd0] using hc
    · intro h; cases h
    · intro e he
      refine ⟨c :: tail, [], by simp, ?_⟩
      dsimp only at he
      generalize (if c = '$' then tail else c :: tail) = name at he
      rcases List.mem_append.mp he with he | he
      · cases hn : name.isEmpty with
        | true => simp [hn] at he; rw [he]
        | false => simp [hn] at he
      · by_cases hn : name.head? = some '_'
        · simp [hn] at he; rw [he]
        · simp [hn] at he

theorem lexInteger_sound {T : CharTable} (i : Nat) (c : Char) (s : Str) (hc : c.isDigit = true) :
    StepSpec T i (c :: s) (lexInteger i c s) (c :: s.takeWhile Char.isDigit) [] := by
  have e1 : s = s.takeWhile Char.isDigit ++ s.dropWhile Char.isDigit := (List.takeWhile_append_dropWhile).symm
  have ht := takeWhile_all Char.isDigit s
  have hd := dropWhile_head Char.isDigit s
  unfold lexInteger
  dsimp only
  generalize s.takeWhile Char.isDigit = tail at *
  generalize s.dropWhile Char.isDigit = rest at *
  split
  · rename_i hlt
    refine ⟨by simp [e1], by simp, by simp [utf8Len], by simp, ?_, by simp, by simp⟩
    intro t ht0 _
    simp only [Option.some.injEq] at ht0
    subst ht0
    refine ⟨rfl, ?_, hd⟩
    rw [decimal_eq] at hlt ⊢
    refine .integer (by simp) ?_ hlt
    intro d hd'
    rcases List.mem_cons.mp hd' with h | h
    · exact h ▸ hc
    · exact ht d h
  · refine ⟨by simp [e1], by simp, by simp [utf8Len], by simp, by simp, by simp, ?_⟩
    intro e he
    simp at he
    exact ⟨c :: tail, [], by simp, by rw [he]⟩

theorem lexPath_sound {T : CharTable} (i : Nat) (s : Str) : ∃ text,
    StepSpec T i ('\'' :: s) (lexPath i s) text [] := by
  have e1 : s = s.takeWhile (fun d => d != '\'') ++ s.dropWhile (fun d => d != '\'') :=
    (List.takeWhile_append_dropWhile).symm
  have ht := takeWhile_all (fun d => d != '\'') s
  have hd := dropWhile_head (fun d => d != '\'') s
  have q : ('\'' : Char).utf8Size = 1 := rfl
  unfold lexPath
  dsimp only
  generalize s.takeWhile (fun d => d != '\'') = body at *
  generalize s.dropWhile (fun d => d != '\'') = after at *
  match after with
  | [] =>
    refine ⟨'\'' :: s, by simp, by simp, by simp [utf8Len, q]; omega, by simp, by simp, by simp, ?_⟩
    intro e he
    simp at he
    exact ⟨['\''], s, by simp, by rw [he]; simp [utf8Len, q]⟩
  | c :: rest =>
    have hc : c = '\'' := by have := hd c rfl; simpa using this
    subst hc
    refine ⟨'\'' :: body ++ ['\''], by simp [e1], by simp, by simp [utf8Len, utf8Len_append, q]; omega, by simp, ?_, by simp,
      by simp⟩
    intro t ht0 _
    simp only [Option.some.injEq] at ht0
    subst ht0
    refine ⟨by simp [utf8Len, utf8Len_append, q]; omega, .path ?_, trivial⟩
    intro h
    have := ht _ h
    simp at this

theorem lexComment_sound {T : CharTable} (hT : T.Ascii) (i : Nat) (s : Str) : ∃ text gap,
    StepSpec T i ('#' :: s) (lexComment T i s) text gap := by
  obtain ⟨text, gap, h1, h2, h3, h4, h5, h6⟩ := scanComment_sound hT (s.length + 1) (i + 1) s (by omega)
  unfold lexComment
  refine ⟨text, gap, h1, ?_, ?_, h5, ?_, by simp, by simp⟩
  · generalize (scanComment T (s.length + 1) (i + 1) s).lines = ls at h2
    cases h2 <;> simp
  · dsimp only
    rw [h4]; omega
  · intro t ht0 _
    simp only [Option.some.injEq] at ht0
    subst ht0
    refine ⟨?_, .comment h2 (paragraphs_spec _), h6⟩
    dsimp only
    have : (scanComment T (s.length + 1) (i + 1) s).lineEnd = i + utf8Len text := by omega
    rw [this]

theorem lexStep_sound {T : CharTable} (hT : T.Ascii) (i : Nat) (c : Char) (s : Str) :
    ∃ text gap, StepSpec T i (c :: s) (lexStep T i c s) text gap := by
  unfold lexStep
  cases hs : symbol? c with
  | some v =>
    have hm := (symbol?_iff c v).mp hs
    have size : c.utf8Size = 1 := by
      simp only [symbolTable, List.mem_cons, Prod.mk.injEq, List.not_mem_nil, or_false] at hm
      rcases hm with ⟨rfl, rfl⟩ | ⟨rfl, rfl⟩ | ⟨rfl, rfl⟩ | ⟨rfl, rfl⟩ | ⟨rfl, rfl⟩ | ⟨rfl, rfl⟩ | ⟨rfl, rfl⟩ <;> rfl
    refine ⟨[c], [], by simp, by simp, by simp [utf8Len, size], by simp, ?_, by simp, by simp⟩
    intro t ht0 _
    simp only [Option.some.injEq] at ht0
    subst ht0
    exact ⟨by simp [utf8Len, size], .symbol hm, ends_symbol hm _⟩
  | none =>
    dsimp only
    split
    · rename_i h
      exact ⟨_, _, lexWord_sound hT i c s h⟩
    split
    · rename_i h
      exact ⟨_, _, lexInteger_sound i c s h⟩
    split
    · rename_i h
      subst h
      obtain ⟨text, h⟩ := lexPath_sound (T := T) i s
      exact ⟨_, _, h⟩
    split
    · rename_i h
      subst h
      exact lexComment_sound hT i s
    split
    · rename_i h
      exact ⟨[c], [], by simp, by simp, by simp [utf8Len], by simp, by simp, by simpa using h, by simp⟩
    · refine ⟨[c], [], by simp, by simp, by simp [utf8Len], by simp, by simp, by simp, ?_⟩
      intro e he
      simp at he
      exact ⟨[], [c], by simp, by rw [he]; simp [utf8Len]⟩

theorem lexStep_length {T : CharTable} (hT : T.Ascii) (i : Nat) (c : Char) (s : Str) :
    (lexStep T i c s).rest.length ≤ s.length := by
  obtain ⟨text, gap, h⟩ := lexStep_sound hT i c s
  have h1 := congrArg List.length h.split
  have h2 : 0 < text.length := List.length_pos_iff.mpr h.nonempty
  simp at h1
  omega

theorem lexLoop_fuel {T : CharTable} (hT : T.Ascii) : ∀ (f g i : Nat) (s : Str), s.length ≤ f → s.length ≤ g →
    lexLoop T f i s = lexLoop T g i s
  | _, _, _, [], _, _ => by simp [lexLoop]
  | 0, _, _, c :: s, h, _ => by simp at h
  | _, 0, _, c :: s, _, h => by simp at h
  | f + 1, g + 1, i, c :: s, hf, hg => by
    have hl := lexStep_length hT i c s
    simp only [List.length_cons] at hf hg
    rw [lexLoop, lexLoop, lexLoop_fuel hT f g _ _ (by omega) (by omega)]

/-- The main loop from a given state. -/
def lexFrom (T : CharTable) (i : Nat) (s : Str) : List Token × List LexErr := lexLoop T s.length i s

theorem lexFrom_nil (T : CharTable) (i : Nat) : lexFrom T i [] = ([], []) := by simp [lexFrom, lexLoop]

theorem lexFrom_cons {T : CharTable} (hT : T.Ascii) (i : Nat) (c : Char) (s : Str) :
    lexFrom T i (c :: s) =
      ((lexStep T i c s).token.toList ++ (lexFrom T (lexStep T i c s).pos (lexStep T i c s).rest).1,
        (lexStep T i c s).errors ++ (lexFrom T (lexStep T i c s).pos (lexStep T i c s).rest).2) := by
  unfold lexFrom
  rw [List.length_cons, lexLoop]
  rw [lexLoop_fuel hT s.length (lexStep T i c s).rest.length _ _ (lexStep_length hT i c s) (Nat.le_refl _)]

/-! ## Soundness -/

theorem Lexes.gap {T : CharTable} {i : Nat} {g s : Str} {ts : List Token} (hg : ∀ c ∈ g, T.isWhitespace c = true)
    (h : Lexes T (i + utf8Len g) s ts) : Lexes T i (g ++ s) ts := by
  generalize hj : i + utf8Len g = j at h
  cases h with
  | nil h =>
    refine .nil ?_
    intro c hc
    rcases List.mem_append.mp hc with hc | hc
    · exact hg c hc
    · exact h c hc
  | @cons _ gap text rest v ts hgap hne hsp hends h =>
    subst hj
    have hgg : ∀ c ∈ g ++ gap, T.isWhitespace c = true := by
      intro c hc
      rcases List.mem_append.mp hc with hc | hc
      · exact hg c hc
      · exact hgap c hc
    have e : i + utf8Len (g ++ gap) = i + utf8Len g + utf8Len gap := by rw [utf8Len_append]; omega
    have := Lexes.cons (i := i) (gap := g ++ gap) hgg hne hsp hends (by rw [e]; exact h)
    rw [e] at this
    simpa using this

theorem lexFrom_sound {T : CharTable} (hT : T.Ascii) : ∀ (n i : Nat) (s : Str), s.length ≤ n →
    (lexFrom T i s).2 = [] → Lexes T i s (lexFrom T i s).1
  | _, _, [], _, _ => by rw [lexFrom_nil]; exact .nil (by simp)
  | 0, _, c :: s, h, _ => by simp at h
  | n + 1, i, c :: s, hn, herr => by
    rw [lexFrom_cons hT] at herr ⊢
    obtain ⟨text, gap, st⟩ := lexStep_sound hT i c s
    have hl := lexStep_length hT i c s
    have hpos := st.pos
    have hsplit := st.split
    dsimp only at herr ⊢
    obtain ⟨he1, he2⟩ := List.append_eq_nil_iff.mp herr
    have ih := lexFrom_sound hT n (lexStep T i c s).pos (lexStep T i c s).rest (by simp at hn; omega) he2
    rw [hsplit]
    cases ht : (lexStep T i c s).token with
    | some t =>
      obtain ⟨hr, hsp, hends⟩ := st.token t ht he1
      rw [hpos] at ih
      have h2 := Lexes.gap (i := i + utf8Len text) st.gapBlank ih
      have h3 := Lexes.cons (i := i) (gap := []) (by simp) st.nonempty hsp hends (by simpa [utf8Len] using h2)
      obtain ⟨r, v⟩ := t
      dsimp only at hr
      subst hr
      rw [List.append_assoc, hpos]
      simpa [utf8Len] using h3
    | none =>
      have hb := st.blank ht he1
      refine Lexes.gap (g := text ++ gap) ?_ ?_
      · intro x hx
        rcases List.mem_append.mp hx with hx | hx
        · exact hb x hx
        · exact st.gapBlank x hx
      · rw [utf8Len_append, ← Nat.add_assoc, ← hpos]
        simpa using ih

theorem lexFrom_errors {T : CharTable} (hT : T.Ascii) : ∀ (n i : Nat) (s : Str), s.length ≤ n →
    ∀ e ∈ (lexFrom T i s).2, ∃ a b c, s = a ++ b ++ c ∧ e.sourceRange = ⟨i + utf8Len a, i + utf8Len (a ++ b)⟩
  | _, _, [], _, e, he => by rw [lexFrom_nil] at he; simp at he
  | 0, _, c :: s, h, _, _ => by simp at h
  | n + 1, i, c :: s, hn, e, he => by
    rw [lexFrom_cons hT] at he
    obtain ⟨text, gap, st⟩ := lexStep_sound hT i c s
    have hl := lexStep_length hT i c s
    rcases List.mem_append.mp he with he | he
    · obtain ⟨a, b, hab, hr⟩ := st.errors e he
      refine ⟨[], a, b ++ gap ++ (lexStep T i c s).rest, ?_, ?_⟩
      · rw [st.split, hab]; simp
      · rw [hr]; simp [utf8Len]
    · obtain ⟨a, b, d, hab, hr⟩ := lexFrom_errors hT n (lexStep T i c s).pos (lexStep T i c s).rest
        (by simp at hn; omega) e he
      refine ⟨text ++ gap ++ a, b, d, ?_, ?_⟩
      · rw [st.split, hab]; simp
      · rw [hr, st.pos]; simp only [utf8Len_append]; simp; omega

end Typical
