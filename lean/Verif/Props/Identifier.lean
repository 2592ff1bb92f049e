import Verif.Front.IdentifierLemmas

/-!
# Property C38: identifiers

`T` is the Unicode table of the Rust standard library: only the assumptions named in each theorem are used.
-/

namespace Typical

theorem asciiTable_ascii : asciiTable.Ascii := by
  refine ⟨fun _ _ => rfl, ?_, ?_, fun _ _ => rfl, fun _ _ => rfl, fun _ _ => rfl⟩
  · intro c hc; simp only [asciiTable]; simp [Nat.not_le.mpr hc]
  · intro c hc; simp only [asciiTable]; simp [Nat.not_le.mpr hc]

/-- **C38 (words).** A name is split into its words, as specified. -/
theorem C38_words (T : CharTable) (h1 : T.isUppercase '_' = false) (h2 : T.isUppercase '-' = false) (s : Str)
    (ws : List Str) : splitWords T s = ws ↔ Words T s ws := by
  constructor
  · intro h
    obtain ⟨ws', h'⟩ := words_exists T s
    rw [← h, splitWords_words h1 h2 h']
    exact h'
  · exact splitWords_words h1 h2

example : splitWords asciiTable "fooBar-BAZ__q1".toList =
    ["foo".toList, "Bar".toList, "B".toList, "A".toList, "Z".toList, "q1".toList] := by decide +kernel

/-- **C38 (identity).** Two names denote the same identifier if and only if they have the same words up to case. -/
theorem C38_same_iff (T : CharTable) (h1 : T.isUppercase '_' = false) (h2 : T.isUppercase '-' = false)
    (hT : T.Lawful) (a b : Str) (ws ws' : List Str) (ha : Words T a ws) (hb : Words T b ws') :
    (Identifier.ofStr T a).same (Identifier.ofStr T b) = true ↔ ws.map T.lowercase = ws'.map T.lowercase := by
  have aux : ∀ {s : Str} {ws : List Str}, Words T s ws →
      (∀ w ∈ ws.map T.lowercase, '_' ∉ w) ∧ (∀ w ∈ ws.map T.lowercase, w ≠ []) := by
    intro s ws h
    constructor
    · intro w hw
      obtain ⟨v, hv, rfl⟩ := List.mem_map.mp hw
      obtain ⟨c, w', -, h2, -⟩ := words_mem h hv
      exact hT.separator v h2
    · intro w hw
      obtain ⟨v, hv, rfl⟩ := List.mem_map.mp hw
      obtain ⟨c, w', h1, -⟩ := words_mem h hv
      exact hT.nonempty v (by rw [h1]; simp)
  unfold Identifier.same Identifier.ofStr
  simp only [beq_iff_eq]
  rw [splitWords_words h1 h2 ha, splitWords_words h1 h2 hb]
  constructor
  · intro h
    exact joinWith_injective (aux ha).1 (aux hb).1 (aux ha).2 (aux hb).2 h
  · intro h; rw [h]

/-- The assumptions hold, and `fooBar` is `foo_bar` but not `foobar`. -/
example : (Identifier.ofStr asciiTable "fooBar".toList).same (Identifier.ofStr asciiTable "Foo-bar".toList) = true ∧
    (Identifier.ofStr asciiTable "fooBar".toList).same (Identifier.ofStr asciiTable "foobar".toList) = false := by
  constructor <;> decide +kernel

/-- **C38 (snake case).** The snake-case name denotes the same identifier, for names of ASCII letters, digits, `_` and `-`. -/
theorem C38_snake_round_trip (T : CharTable) (hT : T.Ascii) (s : Str) (hs : AsciiName s) :
    (Identifier.ofStr T (Identifier.ofStr T s).snakeCase).same (Identifier.ofStr T s) = true := by
  unfold Identifier.same Identifier.ofStr
  simp only [beq_iff_eq]
  have hw : ∀ w ∈ (splitWords T s).map T.lowercase, LowerWord w := by
    intro w hw
    obtain ⟨v, hv, rfl⟩ := List.mem_map.mp hw
    have := plain_words hT hs hv
    rw [lowercase_plain hT this]
    exact this.lower
  rw [split_snake hT _ hw, List.map_map]
  congr 1
  apply List.map_congr_left
  intro w hw'
  have hp := plain_words hT hs hw'
  have hlw := hw _ (List.mem_map.mpr ⟨w, hw', rfl⟩)
  show T.lowercase (T.lowercase w) = T.lowercase w
  rw [hT.lowercase (T.lowercase w) (fun c hc => alphanum_lt (lower_alphanum (hlw.2 c hc)))]
  conv => rhs; rw [← List.map_id (T.lowercase w)]
  apply List.map_congr_left
  intro c hc
  exact toLower_lower (hlw.2 c hc)

/-- No word begins with a digit. -/
def NoDigitWord (T : CharTable) (s : Str) : Prop := ∀ w ws, Words T s ws → w ∈ ws → ∀ c w', w = c :: w' → c.isDigit = false

theorem letterWords {T : CharTable} (hT : T.Ascii) {s : Str} (hs : AsciiName s) (hd : NoDigitWord T s) {w : Str}
    (hw : w ∈ splitWords T s) : LetterWord w := by
  obtain ⟨ws, h⟩ := words_exists T s
  have hp := plain_words hT hs hw
  refine ⟨hp, ?_⟩
  intro c w' he
  have hw' := hw
  rw [splitWords_words (Ascii.sep hT).1 (Ascii.sep hT).2 h] at hw'
  have := hd w ws h hw' c w' he
  have ha := hp.2 c (by rw [he]; exact List.mem_cons_self)
  simp only [Char.isAlphanum, this, Bool.or_false] at ha
  exact ha

/-- **C38 (Pascal case).** The Pascal-case name denotes the same identifier, if no word begins with a digit. -/
theorem C38_pascal_round_trip (T : CharTable) (hT : T.Ascii) (s : Str) (hs : AsciiName s) (hd : NoDigitWord T s) :
    (Identifier.ofStr T ((Identifier.ofStr T s).pascalCase T)).same (Identifier.ofStr T s) = true := by
  unfold Identifier.same Identifier.ofStr Identifier.pascalCase
  simp only [beq_iff_eq]
  have := split_pascal hT [] (splitWords T s) (fun w hw => letterWords hT hs hd hw)
  rw [List.nil_append] at this
  rw [this]
  rfl

/-- **C38 (camel case).** The camel-case name denotes the same identifier, if no word begins with a digit. -/
theorem C38_camel_round_trip (T : CharTable) (hT : T.Ascii) (s : Str) (hs : AsciiName s) (hd : NoDigitWord T s) :
    (Identifier.ofStr T ((Identifier.ofStr T s).camelCase T)).same (Identifier.ofStr T s) = true := by
  unfold Identifier.same Identifier.ofStr Identifier.camelCase
  simp only [beq_iff_eq]
  have hl : ∀ w ∈ splitWords T s, LetterWord w := fun w hw => letterWords hT hs hd hw
  cases hw : splitWords T s with
  | nil => rfl
  | cons w ws =>
    rw [hw] at hl
    dsimp only
    have hp := (hl w List.mem_cons_self).1
    have hlw : LowerWord (T.lowercase w) := by rw [lowercase_plain hT hp]; exact hp.lower
    rw [split_pascal hT _ ws (fun w hw => hl w (List.mem_cons_of_mem _ hw)), hlw.split hT]
    have : T.lowercase (T.lowercase w) = T.lowercase w := by
      rw [hT.lowercase (T.lowercase w) (fun c hc => alphanum_lt (lower_alphanum (hlw.2 c hc)))]
      conv => rhs; rw [← List.map_id (T.lowercase w)]
      apply List.map_congr_left
      intro c hc
      exact toLower_lower (hlw.2 c hc)
    rw [List.map_cons, this]
    rfl

/-- **C38 (distinct generated names).** Different identifiers (without words that begin with digits) have different
snake-case, Pascal-case and camel-case names in the generated code. -/
theorem C38_generated_names_distinct (T : CharTable) (hT : T.Ascii) (a b : Str) (ha : AsciiName a) (hb : AsciiName b)
    (hda : NoDigitWord T a) (hdb : NoDigitWord T b)
    (hne : (Identifier.ofStr T a).same (Identifier.ofStr T b) = false) :
    (Identifier.ofStr T a).snakeCase ≠ (Identifier.ofStr T b).snakeCase ∧
    (Identifier.ofStr T a).pascalCase T ≠ (Identifier.ofStr T b).pascalCase T ∧
    (Identifier.ofStr T a).camelCase T ≠ (Identifier.ofStr T b).camelCase T := by
  have key : ∀ x y : Str, (Identifier.ofStr T x).same (Identifier.ofStr T a) = true →
      (Identifier.ofStr T y).same (Identifier.ofStr T b) = true → x ≠ y := by
    intro x y h1 h2 he
    subst he
    simp only [Identifier.same, beq_iff_eq, beq_eq_false_iff_ne] at h1 h2 hne
    exact hne (h1.symm.trans h2)
  exact ⟨key _ _ (C38_snake_round_trip T hT a ha) (C38_snake_round_trip T hT b hb),
    key _ _ (C38_pascal_round_trip T hT a ha hda) (C38_pascal_round_trip T hT b hb hdb),
    key _ _ (C38_camel_round_trip T hT a ha hda) (C38_camel_round_trip T hT b hb hdb)⟩

/-- The premises hold, for example, for `fooBar2` and `foo_baz`. -/
example : AsciiName "fooBar2".toList ∧ NoDigitWord asciiTable "fooBar2".toList ∧
    (Identifier.ofStr asciiTable "fooBar2".toList).same (Identifier.ofStr asciiTable "foo_baz".toList) = false := by
  refine ⟨?_, ?_, by decide +kernel⟩
  · intro c hc
    have : ∀ c ∈ "fooBar2".toList, c.isAlphanum = true ∨ c = '_' ∨ c = '-' := by decide +kernel
    exact this c hc
  · intro w ws h hw c w' he
    have := (C38_words asciiTable rfl rfl _ _).mpr h
    rw [← this] at hw
    subst he
    have key : ∀ w ∈ splitWords asciiTable "fooBar2".toList, (w.head?.any Char.isDigit) = false := by decide +kernel
    have := key _ hw
    simpa using this

/-- The suffixes of generated types: `Direction` in `/repo/src/generate_rust.rs` lines 92-98, 1728-1741. -/
inductive Suffix
  | atlas
  | in_
  | out
  deriving DecidableEq

def Suffix.str : Suffix → Str
  | .atlas => ['A', 't', 'l', 'a', 's']
  | .in_ => ['I', 'n']
  | .out => ['O', 'u', 't']

theorem suffix_words {T : CharTable} (hT : T.Ascii) (s : Str) (x : Suffix) :
    splitWords T (s ++ ['_'] ++ x.str) = splitWords T s ++ [x.str] := by
  have h : splitWords T x.str = [x.str] := by
    have hu : ∀ c : Char, c.isLower = true → T.isUppercase c = false := by
      intro c hc
      rw [hT.isUppercase c (alphanum_lt (lower_alphanum (.inl hc)))]
      exact (lower_not_sep (.inl hc)).2.2
    cases x with
    | atlas => exact splitWords_word (by decide) (by decide) (fun c hc => hu c (by revert c; decide))
    | in_ => exact splitWords_word (by decide) (by decide) (fun c hc => hu c (by revert c; decide))
    | out => exact splitWords_word (by decide) (by decide) (fun c hc => hu c (by revert c; decide))
  rw [List.append_assoc]
  show splitWords T (s ++ '_' :: x.str) = _
  rw [splitWords_underscore T (Ascii.sep hT).1, h]

/-- **C38 (generated types).** The names of the types generated for declarations (Pascal case, with the suffix `Atlas`, `In` or `Out`) are
different for different declarations or suffixes, if no word begins with a digit. -/
theorem C38_type_names_distinct (T : CharTable) (hT : T.Ascii) (a b : Str) (ha : AsciiName a) (hb : AsciiName b)
    (hda : NoDigitWord T a) (hdb : NoDigitWord T b) (x y : Suffix)
    (h : ((Identifier.ofStr T a).join T (Identifier.ofStr T x.str)).pascalCase T =
      ((Identifier.ofStr T b).join T (Identifier.ofStr T y.str)).pascalCase T) :
    (Identifier.ofStr T a).same (Identifier.ofStr T b) = true ∧ x = y := by
  have name : ∀ s : Str, AsciiName s → ∀ x : Suffix, AsciiName (s ++ ['_'] ++ x.str) := by
    intro s hs x c hc
    rcases List.mem_append.mp hc with hc | hc
    · rcases List.mem_append.mp hc with hc | hc
      · exact hs c hc
      · exact .inr (.inl (List.mem_singleton.mp hc))
    · left
      have all : ∀ x : Suffix, ∀ c ∈ x.str, c.isAlphanum = true := by intro x; cases x <;> decide
      exact all x c hc
  have letters : ∀ s : Str, AsciiName s → NoDigitWord T s → ∀ x : Suffix,
      ∀ w ∈ splitWords T (s ++ ['_'] ++ x.str), LetterWord w := by
    intro s hs hd x w hw
    rw [suffix_words hT] at hw
    rcases List.mem_append.mp hw with hw | hw
    · exact letterWords hT hs hd hw
    · rw [List.mem_singleton.mp hw]
      refine ⟨⟨by cases x <;> decide, by cases x <;> decide⟩, ?_⟩
      intro c w' he
      cases x <;> (simp only [Suffix.str, List.cons.injEq] at he; rw [← he.1]; decide)
  have back : ∀ s : Str, AsciiName s → NoDigitWord T s → ∀ x : Suffix,
      (splitWords T (((Identifier.ofStr T s).join T (Identifier.ofStr T x.str)).pascalCase T)).map T.lowercase =
        (splitWords T s).map T.lowercase ++ [T.lowercase x.str] := by
    intro s hs hd x
    have := split_pascal hT [] _ (letters s hs hd x)
    rw [List.nil_append] at this
    refine Eq.trans this ?_
    rw [suffix_words hT, List.map_append]
    rfl
  have := (back a ha hda x).symm.trans ((congrArg (fun s => (splitWords T s).map T.lowercase) h).trans (back b hb hdb y))
  have key : (splitWords T a).map T.lowercase = (splitWords T b).map T.lowercase ∧
      [T.lowercase x.str] = [T.lowercase y.str] := List.append_inj' this rfl
  refine ⟨?_, ?_⟩
  · simp only [Identifier.same, Identifier.ofStr, key.1, beq_self_eq_true]
  · have hx := (List.cons.inj key.2).1
    have low : ∀ z : Suffix, T.lowercase z.str = z.str.map Char.toLower := by
      intro z; exact hT.lowercase _ (by cases z <;> decide)
    rw [low, low] at hx
    cases x <;> cases y <;> first | rfl | (exfalso; revert hx; decide)

/-- **C38 (witness).** Without the condition on digits, different identifiers get the same generated names: `foo_1` and `foo1`
are different fields, but both become `Foo1` and `foo1`. -/
theorem C38_digit_witness (T : CharTable) (hT : T.Ascii) :
    (Identifier.ofStr T ['f', '_', '1']).same (Identifier.ofStr T ['f', '1']) = false ∧
    (Identifier.ofStr T ['f', '_', '1']).pascalCase T = (Identifier.ofStr T ['f', '1']).pascalCase T ∧
    (Identifier.ofStr T ['f', '_', '1']).camelCase T = (Identifier.ofStr T ['f', '1']).camelCase T := by
  have u : ∀ c : Char, c.toNat < 128 → c.isUpper = false → T.isUppercase c = false := by
    intro c hc hu; rw [hT.isUppercase c hc, hu]
  have w1 : splitWords T ['f', '_', '1'] = [['f'], ['1']] := by
    unfold splitWords
    simp [u 'f' (by decide) (by decide), u '_' (by decide) (by decide), u '1' (by decide) (by decide), splitOn]
  have w2 : splitWords T ['f', '1'] = [['f', '1']] := by
    unfold splitWords
    simp [u 'f' (by decide) (by decide), u '1' (by decide) (by decide), splitOn]
  have l : ∀ s : Str, (∀ c ∈ s, c.toNat < 128) → T.lowercase s = s.map Char.toLower := hT.lowercase
  have l1 := l ['f'] (by decide)
  have l2 := l ['1'] (by decide)
  have l3 := l ['f', '1'] (by decide)
  have l4 := l [] (by decide)
  have t1 := hT.toUppercase 'f' (by decide)
  have t2 := hT.toUppercase '1' (by decide)
  refine ⟨?_, ?_, ?_⟩
  · simp only [Identifier.same, Identifier.ofStr, w1, w2, List.map_cons, List.map_nil, l1, l2, l3]; decide +kernel
  · simp only [Identifier.pascalCase, Identifier.ofStr, w1, w2, List.flatMap_cons, List.flatMap_nil, capitalize, l2, l4, t1,
      t2]
    decide +kernel
  · simp only [Identifier.camelCase, Identifier.ofStr, w1, w2, List.flatMap_cons, List.flatMap_nil, capitalize, l1, l3, l4,
      t2]
    decide +kernel

end Typical
