import Verif.Front.ListingLemmas
import Verif.Front.ParserSound
import Verif.Props.Parser

/-!
# The source ranges of tokens, errors and schemas can be listed
-/

namespace Typical

theorem space_newline {T : CharTable} (hT : T.Ascii) (hS : T.SpaceApart) {c : Char} (h : T.WordChar c) : c ≠ '\n' := by
  rintro rfl
  have h1 := Ascii.newline hT
  rcases h with h | h
  · rw [(hS _ h1).2] at h; cases h
  · exact absurd h (by decide)

theorem ascii_visible {T : CharTable} (hT : T.Ascii) {c : Char} (hc : c.toNat < 128)
    (h : (c == ' ' || (9 ≤ c.toNat && c.toNat ≤ 13)) = false) : T.isWhitespace c = false := by
  rw [hT.isWhitespace c hc]; exact h

theorem digit_visible {T : CharTable} (hT : T.Ascii) {c : Char} (h : c.isDigit = true) : T.isWhitespace c = false := by
  simp [Char.isDigit, UInt32.le_iff_toNat_le] at h
  have e : c.toNat = c.val.toNat := rfl
  refine ascii_visible hT (by omega) ?_
  have h1 : c ≠ ' ' := by rintro rfl; simp at h
  simp [h1]; omega

theorem digit_newline {c : Char} (h : c.isDigit = true) : c ≠ '\n' := by
  rintro rfl; revert h; decide

/-- The text of a token has a visible character in its last line. -/
theorem spells_visible {T : CharTable} (hT : T.Ascii) (hS : T.SpaceApart) {text : Str} {v : TokVariant} (h : Spells T text v) :
    ∃ x c y, text = x ++ c :: y ∧ T.isWhitespace c = false ∧ '\n' ∉ y := by
  have letter : ∀ c, T.isAlphabetic c = true → T.isWhitespace c = false := by
    intro c hc
    cases hw : T.isWhitespace c with
    | false => rfl
    | true => rw [(hS c hw).1] at hc; cases hc
  have word : ∀ w : Str, (∀ d ∈ w, T.WordChar d) → '\n' ∉ w := fun w hw hm => space_newline hT hS (hw _ hm) rfl
  cases h with
  | @symbol c v hm =>
    refine ⟨[], c, [], rfl, ?_, by simp⟩
    simp only [symbolTable, List.mem_cons, Prod.mk.injEq, List.not_mem_nil, or_false] at hm
    rcases hm with ⟨rfl, rfl⟩ | ⟨rfl, rfl⟩ | ⟨rfl, rfl⟩ | ⟨rfl, rfl⟩ | ⟨rfl, rfl⟩ | ⟨rfl, rfl⟩ | ⟨rfl, rfl⟩ <;>
      exact ascii_visible hT (by decide) (by decide)
  | @keyword k v hm =>
    have key : ∀ p ∈ keywordTable, (match p.1.toList with
        | [] => false
        | c :: y => decide (c.toNat < 128) && !(c == ' ' || (9 ≤ c.toNat && c.toNat ≤ 13)) && !y.contains '\n') = true := by
      decide +kernel
    have := key _ hm
    dsimp only at this
    cases hk : k.toList with
    | nil => rw [hk] at this; cases this
    | cons c y =>
      rw [hk] at this
      simp only [Bool.and_eq_true, decide_eq_true_eq, Bool.not_eq_true'] at this
      exact ⟨[], c, y, rfl, ascii_visible hT this.1.1 this.1.2, by simpa using this.2⟩
  | @identifier c w h1 h2 h3 => exact ⟨[], c, w, rfl, letter c h1, word w h2⟩
  | @raw c w h1 h2 h3 =>
    refine ⟨[], '$', c :: w, rfl, ascii_visible hT (by decide) (by decide), word _ ?_⟩
    intro d hd
    rcases List.mem_cons.mp hd with rfl | hd
    · exact .inl h1
    · exact h3 d hd
  | integer h1 h2 =>
    cases text with
    | nil => exact absurd rfl h1
    | cons c w =>
      exact ⟨[], c, w, rfl, digit_visible hT (h2 c (by simp)), fun hm => digit_newline (h2 _ (by simp [hm])) rfl⟩
  | @path p h1 => exact ⟨'\'' :: p, '\'', [], by simp, ascii_visible hT (by decide) (by decide), by simp⟩
  | @comment t ls ps h1 h2 =>
    clear h2
    induction h1 with
    | @last l u h1 h2 => exact ⟨[], '#', l, rfl, ascii_visible hT (by decide) (by decide), h1⟩
    | @more l u b t us h1 h2 h3 h4 ih =>
      obtain ⟨x, c, y, e, hc, hy⟩ := ih
      exact ⟨'#' :: l ++ '\n' :: b ++ x, c, y, by rw [e]; simp, hc, hy⟩

/-- A range from the beginning of one token to the end of the same or a later one. -/
def TokenSpan (ts : List Token) (r : SourceRange) : Prop :=
  ∃ t ∈ ts, ∃ u ∈ ts, r = ⟨t.sourceRange.start, u.sourceRange.stop⟩ ∧ t.sourceRange.start ≤ u.sourceRange.start

/-- The source range names a part of the source and can be listed. -/
def Listable (T : CharTable) (source : Str) (r : SourceRange) : Prop := InSource source r ∧ EndsVisibly T source r

theorem lexes_visible {T : CharTable} (hT : T.Ascii) (hS : T.SpaceApart) {i : Nat} {s : Str} {ts : List Token}
    (h : Lexes T i s ts) : ∀ t ∈ ts, ∃ a x c y z, s = a ++ (x ++ c :: y) ++ z ∧ t.sourceRange.start = i + utf8Len a ∧
      t.sourceRange.stop = i + utf8Len (a ++ (x ++ c :: y)) ∧ T.isWhitespace c = false ∧ '\n' ∉ y := by
  induction h with
  | nil h => intro t ht; simp at ht
  | @cons i gap text rest v ts hgap hne hsp hends h ih =>
    intro t ht
    rcases List.mem_cons.mp ht with rfl | ht
    · obtain ⟨x, c, y, e, hc, hy⟩ := spells_visible hT hS hsp
      refine ⟨gap, x, c, y, rest, by rw [e], rfl, ?_, hc, hy⟩
      dsimp only
      rw [← e, utf8Len_append]; omega
    · obtain ⟨a, x, c, y, z, e, h1, h2, hc, hy⟩ := ih t ht
      refine ⟨gap ++ text ++ a, x, c, y, z, by rw [e]; simp, ?_, ?_, hc, hy⟩
      · rw [h1]; simp only [utf8Len_append]; omega
      · rw [h2]; simp only [utf8Len_append]; omega

theorem tokenSpan_listable {T : CharTable} (hT : T.Ascii) (hS : T.SpaceApart) {s : Str} {ts : List Token}
    (h : Lexes T 0 s ts) {r : SourceRange} (hr : TokenSpan ts r) : Listable T s r := by
  obtain ⟨t, ht, u, hu, rfl, hle⟩ := hr
  obtain ⟨a, x, c, y, z, e, h1, h2, hc, hy⟩ := lexes_visible hT hS h t ht
  obtain ⟨a', x', c', y', z', e', h1', h2', hc', hy'⟩ := lexes_visible hT hS h u hu
  have h12 : a ++ ((x ++ c :: y) ++ z) = a' ++ ((x' ++ c' :: y') ++ z') := by
    have := e.symm.trans e'
    simpa only [List.append_assoc] using this
  obtain ⟨g, g1, g2⟩ := prefix_of_le h12 (by omega)
  constructor
  · refine ⟨a, g ++ (x' ++ c' :: y'), z', ?_, ?_, ?_⟩
    · rw [e', g1]; simp
    · dsimp only; omega
    · dsimp only; rw [h2', g1]; simp
  · refine .inr ⟨a' ++ x', c', y', z', by rw [e']; simp, ?_, ?_, hc', hy'⟩
    · dsimp only; rw [utf8Len_append]; omega
    · dsimp only; rw [h2']; simp

theorem empty_listable {T : CharTable} {s a b : Str} (e : s = a ++ b) : Listable T s ⟨utf8Len a, utf8Len a⟩ :=
  ⟨⟨a, [], b, by simp [e], rfl, by simp⟩, .inl rfl⟩

/-! ### The errors of the tokenizer -/

theorem lexStep_visible {T : CharTable} (hT : T.Ascii) (hS : T.SpaceApart) (i : Nat) (c : Char) (s : Str) :
    ∀ e ∈ (lexStep T i c s).errors, e.sourceRange = ⟨i, i⟩ ∨ ∃ w z, s = w ++ z ∧
      e.sourceRange = ⟨i, i + utf8Len (c :: w)⟩ ∧ T.isWhitespace c = false ∧ '\n' ∉ w := by
  intro e he
  unfold lexStep at he
  cases hs : symbol? c with
  | some v => rw [hs] at he; simp at he
  | none =>
    rw [hs] at he
    dsimp only at he
    split at he
    · -- a word
      rename_i hc
      have hvis : T.isWhitespace c = false := by
        cases hw : T.isWhitespace c with
        | false => rfl
        | true =>
          simp only [Bool.or_eq_true, beq_iff_eq] at hc
          rcases hc with (hc | rfl) | rfl
          · rw [(hS c hw).1] at hc; cases hc
          · rw [hT.isWhitespace _ (by decide)] at hw; revert hw; decide
          · rw [hT.isWhitespace _ (by decide)] at hw; revert hw; decide
      refine .inr ⟨s.takeWhile (fun d => T.isAlphanumeric d || d == '_'), s.dropWhile (fun d => T.isAlphanumeric d || d == '_'),
        (List.takeWhile_append_dropWhile).symm, ?_, hvis, ?_⟩
      · unfold lexWord at he
        dsimp only at he
        cases hk : keyword? (c :: s.takeWhile (fun d => T.isAlphanumeric d || d == '_')) with
        | some v => rw [hk] at he; simp at he
        | none =>
          rw [hk] at he
          dsimp only at he
          generalize (if c = '$' then _ else c :: _) = name at he
          rcases List.mem_append.mp he with he | he
          · cases hn : name.isEmpty with
            | true => simp [hn] at he; rw [he]
            | false => simp [hn] at he
          · by_cases hn : name.head? = some '_'
            · simp [hn] at he; rw [he]
            · simp [hn] at he
      · intro hm
        exact space_newline hT hS ((wordChar_bool T _).mp (takeWhile_all (fun d => T.isAlphanumeric d || d == '_') _ _ hm)) rfl
    split at he
    · -- an integer
      rename_i hc
      refine .inr ⟨s.takeWhile Char.isDigit, s.dropWhile Char.isDigit, (List.takeWhile_append_dropWhile).symm, ?_,
        digit_visible hT hc, fun hm => digit_newline (takeWhile_all _ _ _ hm) rfl⟩
      unfold lexInteger at he
      dsimp only at he
      split at he
      · simp at he
      · simp at he; rw [he]
    split at he
    · rename_i hc
      subst hc
      refine .inr ⟨[], s, by simp, ?_, ascii_visible hT (by decide) (by decide), by simp⟩
      unfold lexPath at he
      dsimp only at he
      split at he
      · simp at he; rw [he]; rfl
      · simp at he
    split at he
    · simp [lexComment] at he
    split at he
    · simp at he
    · simp at he; exact .inl (by rw [he])

theorem lexFrom_visible {T : CharTable} (hT : T.Ascii) (hS : T.SpaceApart) : ∀ (n i : Nat) (s : Str), s.length ≤ n →
    ∀ e ∈ (lexFrom T i s).2, (∃ a b, s = a ++ b ∧ e.sourceRange = ⟨i + utf8Len a, i + utf8Len a⟩) ∨
      ∃ x c y z, s = x ++ c :: y ++ z ∧ e.sourceRange = ⟨i + utf8Len x, i + utf8Len (x ++ c :: y)⟩ ∧
        T.isWhitespace c = false ∧ '\n' ∉ y
  | _, _, [], _, e, he => by rw [lexFrom_nil] at he; simp at he
  | 0, _, c :: s, h, _, _ => by simp at h
  | n + 1, i, c :: s, hn, e, he => by
    rw [lexFrom_cons hT] at he
    obtain ⟨text, gap, st⟩ := lexStep_sound hT i c s
    have hl := lexStep_length hT i c s
    rcases List.mem_append.mp he with he | he
    · rcases lexStep_visible hT hS i c s e he with h | ⟨w, z, h1, h2, h3, h4⟩
      · exact .inl ⟨[], c :: s, rfl, by rw [h]; simp [utf8Len]⟩
      · exact .inr ⟨[], c, w, z, by simp [h1], by rw [h2]; simp [utf8Len], h3, h4⟩
    · rcases lexFrom_visible hT hS n (lexStep T i c s).pos (lexStep T i c s).rest (by simp at hn; omega) e he with
        ⟨a, b, hab, hr⟩ | ⟨x, d, y, z, h1, h2, h3, h4⟩
      · refine .inl ⟨text ++ gap ++ a, b, by rw [st.split, hab]; simp, ?_⟩
        rw [hr, st.pos]; simp only [utf8Len_append]; simp; omega
      · refine .inr ⟨text ++ gap ++ x, d, y, z, by rw [st.split, h1]; simp, ?_, h3, h4⟩
        rw [h2, st.pos]; simp only [utf8Len_append]; simp; omega

theorem lexErrors_listable {T : CharTable} (hT : T.Ascii) (hS : T.SpaceApart) {s : Str} {es : List LexErr}
    (h : tokenize T s = .error es) : ∀ e ∈ es, Listable T s e.sourceRange := by
  unfold tokenize at h
  dsimp only at h
  split at h
  · cases h
  · cases h
    intro e he
    rcases lexFrom_visible hT hS s.length 0 s (Nat.le_refl _) e he with ⟨a, b, h1, h2⟩ | ⟨x, c, y, z, h1, h2, h3, h4⟩
    · rw [h2]; simpa using empty_listable (T := T) h1
    · rw [h2]
      simp only [Nat.zero_add]
      exact ⟨⟨x, c :: y, z, h1, rfl, rfl⟩, .inr ⟨x, c, y, z, h1, Nat.le_refl _, rfl, h3, h4⟩⟩

end Typical
