import Verif.Spec.Identifier

/-!
# Lemmas about identifiers
-/

namespace Typical

/-! ### Splitting and joining -/

theorem splitOn_ne_nil (sep : Char) (s : Str) : splitOn sep s ≠ [] := by
  cases s with
  | nil => simp [splitOn]
  | cons c s =>
    unfold splitOn
    split
    · simp
    · split <;> simp

theorem splitOn_of_not_mem {sep : Char} {s : Str} (h : sep ∉ s) : splitOn sep s = [s] := by
  induction s with
  | nil => rfl
  | cons c s ih =>
    rw [List.mem_cons, not_or] at h
    rw [splitOn, if_neg (Ne.symm h.1), ih h.2]

theorem splitOn_append (sep : Char) (a b : Str) : splitOn sep (a ++ sep :: b) = splitOn sep a ++ splitOn sep b := by
  induction a with
  | nil => simp [splitOn]
  | cons c a ih =>
    rw [List.cons_append, splitOn]
    by_cases h : c = sep
    · rw [if_pos h, splitOn, if_pos h, ih]; rfl
    · rw [if_neg h, splitOn, if_neg h, ih]
      cases hs : splitOn sep a with
      | nil => exact absurd hs (splitOn_ne_nil sep a)
      | cons w ws => rfl

/-- The string between the two steps of `splitWords`. -/
def snaked (T : CharTable) (name : Str) : Str :=
  name.flatMap (fun c => if T.isUppercase c then ['_', c] else [c])

/-- The second step of `splitWords`. -/
def unsnake (s : Str) : List Str := ((splitOn '_' s).flatMap (splitOn '-')).filter (fun word => !word.isEmpty)

theorem splitWords_eq (T : CharTable) (s : Str) : splitWords T s = unsnake (snaked T s) := rfl

theorem unsnake_append (a b : Str) : unsnake (a ++ '_' :: b) = unsnake a ++ unsnake b := by
  unfold unsnake
  rw [splitOn_append, List.flatMap_append, List.filter_append]

theorem snaked_append (T : CharTable) (a b : Str) : snaked T (a ++ b) = snaked T a ++ snaked T b := by
  unfold snaked; rw [List.flatMap_append]

theorem snaked_cons (T : CharTable) (c : Char) (s : Str) :
    snaked T (c :: s) = (if T.isUppercase c then ['_', c] else [c]) ++ snaked T s := by
  unfold snaked; rw [List.flatMap_cons]

theorem snaked_of_lower {T : CharTable} {s : Str} (h : ∀ c ∈ s, T.isUppercase c = false) : snaked T s = s := by
  induction s with
  | nil => rfl
  | cons c s ih =>
    rw [snaked_cons, h c List.mem_cons_self, ih (fun c hc => h c (List.mem_cons_of_mem _ hc))]
    rfl

theorem unsnake_nil : unsnake [] = [] := rfl

theorem unsnake_word {w : Str} (h : w ≠ []) (h1 : '_' ∉ w) (h2 : '-' ∉ w) : unsnake w = [w] := by
  unfold unsnake
  rw [splitOn_of_not_mem h1, List.flatMap_singleton, splitOn_of_not_mem h2]
  cases w with
  | nil => exact absurd rfl h
  | cons c w => rfl

theorem unsnake_sep (s : Str) : unsnake ('_' :: s) = unsnake s := by
  have := unsnake_append [] s
  rwa [List.nil_append, unsnake_nil, List.nil_append] at this

/-- Hyphens separate like underscores. -/
theorem unsnake_hyphen_append (a b : Str) (h : '_' ∉ a) : unsnake (a ++ '-' :: b) = unsnake a ++ unsnake b := by
  unfold unsnake
  rw [splitOn_of_not_mem h, List.flatMap_singleton]
  have key : ∃ w ws, splitOn '_' (b) = w :: ws := by
    cases hs : splitOn '_' b with
    | nil => exact absurd hs (splitOn_ne_nil '_' b)
    | cons w ws => exact ⟨w, ws, rfl⟩
  obtain ⟨w, ws, hb⟩ := key
  have : splitOn '_' (a ++ '-' :: b) = (a ++ '-' :: w) :: ws := by
    induction a with
    | nil => rw [List.nil_append, splitOn, if_neg (by decide), hb]; rfl
    | cons c a ih =>
      rw [List.mem_cons, not_or] at h
      rw [List.cons_append, splitOn, if_neg (Ne.symm h.1), ih h.2]
      rfl
  rw [this, hb, List.flatMap_cons, List.flatMap_cons, splitOn_append, List.append_assoc, List.filter_append]

/-- An upper-case letter begins a word. -/
theorem splitWords_upper (T : CharTable) (a : Str) (c : Char) (b : Str) (h : T.isUppercase c = true) :
    splitWords T (a ++ c :: b) = splitWords T a ++ splitWords T (c :: b) := by
  rw [splitWords_eq, splitWords_eq, splitWords_eq, snaked_append, snaked_cons, h]
  show unsnake (snaked T a ++ '_' :: (c :: snaked T b)) = _ ++ unsnake ('_' :: (c :: snaked T b))
  rw [unsnake_append, unsnake_sep]

/-- An underscore separates words. -/
theorem splitWords_underscore (T : CharTable) (hT : T.isUppercase '_' = false) (a b : Str) :
    splitWords T (a ++ '_' :: b) = splitWords T a ++ splitWords T b := by
  rw [splitWords_eq, splitWords_eq, splitWords_eq, snaked_append, snaked_cons, hT]
  exact unsnake_append _ _

/-- A single word. -/
theorem splitWords_word {T : CharTable} {c : Char} {w : Str} (h1 : '_' ∉ c :: w) (h2 : '-' ∉ c :: w)
    (h : ∀ x ∈ w, T.isUppercase x = false) : splitWords T (c :: w) = [c :: w] := by
  rw [splitWords_eq, snaked_cons, snaked_of_lower h]
  split
  · show unsnake ('_' :: (c :: w)) = _
    rw [unsnake_sep, unsnake_word (by simp) h1 h2]
  · exact unsnake_word (by simp) h1 h2

/-! ### The specification of words -/

theorem words_exists (T : CharTable) (s : Str) : ∃ ws, Words T s ws := by
  suffices h : ∀ n, ∀ s : Str, s.length ≤ n → ∃ ws, Words T s ws from h _ s (Nat.le_refl _)
  intro n
  induction n with
  | zero => intro s hs; cases s with
    | nil => exact ⟨[], .nil⟩
    | cons c s => simp at hs
  | succ n ih =>
    intro s hs
    cases s with
    | nil => exact ⟨[], .nil⟩
    | cons c s =>
      rw [List.length_cons] at hs
      by_cases hc : c = '_' ∨ c = '-'
      · obtain ⟨ws, h⟩ := ih s (by omega)
        exact ⟨ws, .separator hc h⟩
      · rw [not_or] at hc
        let p : Char → Bool := fun x => x ≠ '_' && x ≠ '-' && !T.isUppercase x
        obtain ⟨ws, h⟩ := ih (s.dropWhile p) (by
          have := (List.dropWhile_suffix (l := s) p).length_le
          omega)
        refine ⟨(c :: s.takeWhile p) :: ws, ?_⟩
        have hs' : c :: s = c :: s.takeWhile p ++ s.dropWhile p := by
          rw [List.cons_append, List.takeWhile_append_dropWhile]
        rw [hs']
        refine .word hc.1 hc.2 ?_ ?_ h
        · intro x hx
          have := List.all_eq_true.mp (List.all_takeWhile (l := s) (p := p)) x hx
          simp only [p, Bool.and_eq_true, decide_eq_true_eq, Bool.not_eq_true'] at this
          exact ⟨this.1.1, this.1.2, this.2⟩
        · intro x s' he
          have := List.head?_dropWhile_not p s
          rw [he] at this
          simp only [List.head?_cons] at this
          simp only [p, Bool.and_eq_false_iff, decide_eq_false_iff_not, Decidable.not_not, Bool.not_eq_false'] at this
          rcases this with (h | h) | h
          · exact .inl h
          · exact .inr (.inl h)
          · exact .inr (.inr h)

theorem splitWords_words {T : CharTable} (h1 : T.isUppercase '_' = false) (h2 : T.isUppercase '-' = false)
    {s : Str} {ws : List Str} (h : Words T s ws) : splitWords T s = ws := by
  induction h with
  | nil => rfl
  | @separator c s ws hc _ ih =>
    rcases hc with rfl | rfl
    · have := splitWords_underscore T h1 [] s
      rw [List.nil_append] at this
      rw [this, ih]; rfl
    · rw [splitWords_eq, snaked_cons, h2]
      have := unsnake_hyphen_append [] (snaked T s) (by simp)
      rw [List.nil_append, unsnake_nil, List.nil_append] at this
      exact this.trans ih
  | @word c w s ws c1 c2 hw hs _ ih =>
    have hu : '_' ∉ c :: w := by
      rw [List.mem_cons, not_or]
      exact ⟨Ne.symm c1, fun h => (hw _ h).1 rfl⟩
    have hh : '-' ∉ c :: w := by
      rw [List.mem_cons, not_or]
      exact ⟨Ne.symm c2, fun h => (hw _ h).2.1 rfl⟩
    have one := splitWords_word hu hh (fun x hx => (hw x hx).2.2)
    cases s with
    | nil =>
      have : ws = [] := ih.symm
      rw [this, List.append_nil, one]
    | cons x s =>
      rcases hs x s rfl with rfl | rfl | hx
      · rw [splitWords_underscore T h1, one, ← ih]
        have := splitWords_underscore T h1 [] s
        rw [List.nil_append] at this
        rw [this]; rfl
      · have e : splitWords T ('-' :: s) = unsnake (snaked T s) := by
          rw [splitWords_eq, snaked_cons, h2]
          have := unsnake_hyphen_append [] (snaked T s) (by simp)
          rwa [List.nil_append, unsnake_nil, List.nil_append] at this
        rw [← ih, e]
        rw [splitWords_eq, snaked_append, snaked_cons T '-', h2, snaked_cons, snaked_of_lower (fun x hx => (hw x hx).2.2)]
        have u := unsnake_hyphen_append (c :: w) (snaked T s) hu
        rw [unsnake_word (by simp) hu hh] at u
        split
        · show unsnake ('_' :: (c :: w) ++ '-' :: snaked T s) = _
          rw [List.cons_append, unsnake_sep]; exact u
        · exact u
      · rw [splitWords_upper T _ x s hx, one, ih]; rfl

/-! ### Joining words -/

theorem joinWith_injective {sep : Char} : ∀ {l l' : List Str}, (∀ w ∈ l, sep ∉ w) → (∀ w ∈ l', sep ∉ w) →
    (∀ w ∈ l, w ≠ []) → (∀ w ∈ l', w ≠ []) → joinWith [sep] l = joinWith [sep] l' → l = l' := by
  intro l l' h1 h2 h3 h4 he
  have key : ∀ l : List Str, (∀ w ∈ l, sep ∉ w) → (∀ w ∈ l, w ≠ []) → l ≠ [] →
      splitOn sep (joinWith [sep] l) = l := by
    intro l
    induction l with
    | nil => intro _ _ h; exact absurd rfl h
    | cons w ws ih =>
      intro h h' _
      cases ws with
      | nil => exact splitOn_of_not_mem (h w List.mem_cons_self)
      | cons w' ws =>
        rw [joinWith, List.append_assoc]
        show splitOn sep (w ++ sep :: joinWith [sep] (w' :: ws)) = _
        rw [splitOn_append, splitOn_of_not_mem (h w List.mem_cons_self),
          ih (fun w hw => h w (List.mem_cons_of_mem _ hw)) (fun w hw => h' w (List.mem_cons_of_mem _ hw)) (by simp)]
        rfl
  have nilcase : ∀ l : List Str, (∀ w ∈ l, w ≠ []) → joinWith [sep] l = [] → l = [] := by
    intro l h h'
    cases l with
    | nil => rfl
    | cons w ws =>
      exfalso
      cases ws with
      | nil => exact h w List.mem_cons_self h'
      | cons w' ws => simp [joinWith] at h'
  by_cases e : l = []
  · subst e
    exact (nilcase l' h4 he.symm).symm
  · by_cases e' : l' = []
    · subst e'
      exact absurd (nilcase l h3 he) e
    · rw [← key l h1 h3 e, ← key l' h2 h4 e', he]

/-- The words produced contain no separators and are not empty. -/
theorem words_mem {T : CharTable} {s : Str} {ws : List Str} (h : Words T s ws) {w : Str} (hw : w ∈ ws) :
    ∃ c w', w = c :: w' ∧ '_' ∉ w ∧ '-' ∉ w ∧ (∀ x ∈ w', T.isUppercase x = false) ∧ (∀ x ∈ w, x ∈ s) := by
  induction h with
  | nil => cases hw
  | separator _ _ ih =>
    obtain ⟨c, w', h1, h2, h3, h4, h5⟩ := ih hw
    exact ⟨c, w', h1, h2, h3, h4, fun x hx => List.mem_cons_of_mem _ (h5 x hx)⟩
  | @word c v s ws c1 c2 hv hs _ ih =>
    rcases List.mem_cons.mp hw with rfl | hw
    · refine ⟨c, v, rfl, ?_, ?_, fun x hx => (hv x hx).2.2, fun x hx => List.mem_append_left _ hx⟩
      · rw [List.mem_cons, not_or]; exact ⟨Ne.symm c1, fun h => (hv _ h).1 rfl⟩
      · rw [List.mem_cons, not_or]; exact ⟨Ne.symm c2, fun h => (hv _ h).2.1 rfl⟩
    · obtain ⟨c, w', h1, h2, h3, h4, h5⟩ := ih hw
      exact ⟨c, w', h1, h2, h3, h4, fun x hx => List.mem_append_right _ (h5 x hx)⟩

/-! ### Case conversions of ASCII words -/

/-- A word in lower case: no separators, no upper-case letters. -/
def LowerWord (w : Str) : Prop := w ≠ [] ∧ ∀ c ∈ w, c.isLower = true ∨ c.isDigit = true

theorem ascii_all (P : Char → Bool) (h : ∀ n < 128, P (Char.ofNat n) = true) {c : Char} (hc : c.toNat < 128) :
    P c = true := by
  have := h c.toNat hc
  rwa [Char.ofNat_toNat] at this

theorem alphanum_lt {c : Char} (h : c.isAlphanum = true) : c.toNat < 128 := by
  simp only [Char.isAlphanum, Char.isAlpha, Char.isUpper, Char.isLower, Char.isDigit, Bool.or_eq_true, Bool.and_eq_true,
    decide_eq_true_eq, UInt32.le_iff_toNat_le] at h
  have e : c.toNat = c.val.toNat := rfl
  simp at h
  omega

theorem lower_alphanum {c : Char} (h : c.isLower = true ∨ c.isDigit = true) : c.isAlphanum = true := by
  simp only [Char.isAlphanum, Char.isAlpha, Bool.or_eq_true]
  rcases h with h | h
  · exact .inl (.inr h)
  · exact .inr h

theorem lower_or_digit {c : Char} (h : c.isAlphanum = true) (hu : c.isUpper = false) :
    c.isLower = true ∨ c.isDigit = true := by
  simp only [Char.isAlphanum, Char.isAlpha, hu, Bool.false_or, Bool.or_eq_true] at h
  exact h

theorem lower_not_sep {c : Char} (h : c.isLower = true ∨ c.isDigit = true) : c ≠ '_' ∧ c ≠ '-' ∧ c.isUpper = false := by
  have := ascii_all (fun c => !(c.isLower || c.isDigit) || (c ≠ '_' && c ≠ '-' && !c.isUpper)) (by decide +kernel)
    (alphanum_lt (lower_alphanum h))
  simp only [Bool.or_eq_true, Bool.not_eq_true', Bool.or_eq_false_iff, Bool.and_eq_true, decide_eq_true_eq] at this
  rcases this with ⟨h1, h2⟩ | ⟨⟨h1, h2⟩, h3⟩
  · rcases h with h | h
    · rw [h1] at h; cases h
    · rw [h2] at h; cases h
  · exact ⟨h1, h2, h3⟩

theorem toLower_alphanum {c : Char} (h : c.isAlphanum = true) : c.toLower.isLower = true ∨ c.toLower.isDigit = true := by
  have := ascii_all (fun c => !c.isAlphanum || (c.toLower.isLower || c.toLower.isDigit)) (by decide +kernel) (alphanum_lt h)
  simpa [h] using this

theorem toLower_lower {c : Char} (h : c.isLower = true ∨ c.isDigit = true) : c.toLower = c := by
  have := ascii_all (fun c => !(c.isLower || c.isDigit) || (c.toLower = c)) (by decide +kernel)
    (alphanum_lt (lower_alphanum h))
  rcases h with h | h <;> simpa [h] using this

theorem toUpper_alpha {c : Char} (h : c.isAlpha = true) :
    c.toUpper.isUpper = true ∧ c.toUpper.toLower = c.toLower ∧ c.toUpper.isAlphanum = true ∧ c.toUpper ≠ '_' ∧
      c.toUpper ≠ '-' := by
  have ha : c.isAlphanum = true := by simp [Char.isAlphanum, h]
  have := ascii_all (fun c => !c.isAlpha || (c.toUpper.isUpper && c.toUpper.toLower = c.toLower && c.toUpper.isAlphanum &&
    c.toUpper ≠ '_' && c.toUpper ≠ '-')) (by decide +kernel) (alphanum_lt ha)
  simp only [h, Bool.not_true, Bool.false_or, Bool.and_eq_true, decide_eq_true_eq] at this
  exact ⟨this.1.1.1.1, this.1.1.1.2, this.1.1.2, this.1.2, this.2⟩

theorem toLower_toLower {c : Char} (h : c.isAlphanum = true) : c.toLower.toLower = c.toLower :=
  toLower_lower (toLower_alphanum h)

/-- A word of letters and digits. -/
def PlainWord (w : Str) : Prop := w ≠ [] ∧ ∀ c ∈ w, c.isAlphanum = true

/-- A word of letters and digits which begins with a letter. -/
def LetterWord (w : Str) : Prop := PlainWord w ∧ ∀ c w', w = c :: w' → c.isAlpha = true

theorem PlainWord.lower {w : Str} (h : PlainWord w) : LowerWord (w.map Char.toLower) := by
  refine ⟨by simpa using h.1, ?_⟩
  intro c hc
  obtain ⟨c', h', rfl⟩ := List.mem_map.mp hc
  exact toLower_alphanum (h.2 _ h')

theorem LowerWord.split {T : CharTable} (hT : T.Ascii) {w : Str} (h : LowerWord w) : splitWords T w = [w] := by
  have hs : ∀ c ∈ w, c ≠ '_' ∧ c ≠ '-' ∧ T.isUppercase c = false := by
    intro c hc
    have := lower_not_sep (h.2 c hc)
    refine ⟨this.1, this.2.1, ?_⟩
    rw [hT.isUppercase c (alphanum_lt (lower_alphanum (h.2 c hc)))]
    exact this.2.2
  cases w with
  | nil => exact absurd rfl h.1
  | cons c w =>
    exact splitWords_word (fun hm => (hs _ hm).1 rfl) (fun hm => (hs _ hm).2.1 rfl)
      (fun x hx => (hs x (List.mem_cons_of_mem _ hx)).2.2)

theorem Ascii.sep {T : CharTable} (hT : T.Ascii) : T.isUppercase '_' = false ∧ T.isUppercase '-' = false := by
  constructor
  · rw [hT.isUppercase _ (by decide)]; decide
  · rw [hT.isUppercase _ (by decide)]; decide

/-- Snake case splits into its words. -/
theorem split_snake {T : CharTable} (hT : T.Ascii) (ws : List Str) (h : ∀ w ∈ ws, LowerWord w) :
    splitWords T (joinWith ['_'] ws) = ws := by
  induction ws with
  | nil => rfl
  | cons w ws ih =>
    cases ws with
    | nil => exact (h w List.mem_cons_self).split hT
    | cons w' ws =>
      rw [joinWith, List.append_assoc]
      show splitWords T (w ++ '_' :: joinWith ['_'] (w' :: ws)) = _
      rw [splitWords_underscore T (Ascii.sep hT).1, (h w List.mem_cons_self).split hT,
        ih (fun w hw => h w (List.mem_cons_of_mem _ hw))]
      rfl

/-- A capitalised word. -/
theorem capitalize_eq {T : CharTable} (hT : T.Ascii) {w : Str} (h : LetterWord w) :
    ∃ u s, capitalize T w = u :: s ∧ u.isUpper = true ∧ T.isUppercase u = true ∧ splitWords T (u :: s) = [u :: s] ∧
      T.lowercase (u :: s) = T.lowercase w := by
  obtain ⟨⟨hne, hw⟩, ha⟩ := h
  cases w with
  | nil => exact absurd rfl hne
  | cons c w =>
    have hc := ha c w rfl
    have hcn := hw c List.mem_cons_self
    have hwn : ∀ x ∈ w, x.isAlphanum = true := fun x hx => hw x (List.mem_cons_of_mem _ hx)
    obtain ⟨u1, u2, u3, u4, u5⟩ := toUpper_alpha hc
    have hl : T.lowercase w = w.map Char.toLower := hT.lowercase w (fun x hx => alphanum_lt (hwn x hx))
    have hlow : ∀ x ∈ w.map Char.toLower, x ≠ '_' ∧ x ≠ '-' ∧ T.isUppercase x = false := by
      intro x hx
      obtain ⟨y, hy, rfl⟩ := List.mem_map.mp hx
      have hq := toLower_alphanum (hwn y hy)
      have := lower_not_sep hq
      exact ⟨this.1, this.2.1, by rw [hT.isUppercase _ (alphanum_lt (lower_alphanum hq))]; exact this.2.2⟩
    refine ⟨c.toUpper, w.map Char.toLower, ?_, u1, ?_, ?_, ?_⟩
    · rw [capitalize, hT.toUppercase c (alphanum_lt hcn), hl]; rfl
    · rw [hT.isUppercase _ (alphanum_lt u3)]; exact u1
    · refine splitWords_word ?_ ?_ (fun x hx => (hlow x hx).2.2)
      · rw [List.mem_cons, not_or]; exact ⟨Ne.symm u4, fun h => (hlow _ h).1 rfl⟩
      · rw [List.mem_cons, not_or]; exact ⟨Ne.symm u5, fun h => (hlow _ h).2.1 rfl⟩
    · rw [hT.lowercase (c :: w) (fun x hx => alphanum_lt (hw x hx)), hT.lowercase]
      · rw [List.map_cons, List.map_cons, u2, List.map_map]
        congr 1
        apply List.map_congr_left
        intro x hx
        exact toLower_toLower (hwn x hx)
      · intro x hx
        rcases List.mem_cons.mp hx with rfl | hx
        · exact alphanum_lt u3
        · obtain ⟨y, hy, rfl⟩ := List.mem_map.mp hx
          exact alphanum_lt (lower_alphanum (toLower_alphanum (hwn y hy)))

/-- Pascal case splits into words which agree up to case; also after any prefix. -/
theorem split_pascal {T : CharTable} (hT : T.Ascii) (a : Str) (ws : List Str) (h : ∀ w ∈ ws, LetterWord w) :
    (splitWords T (a ++ ws.flatMap (capitalize T))).map T.lowercase =
      (splitWords T a).map T.lowercase ++ ws.map T.lowercase := by
  induction ws generalizing a with
  | nil => simp
  | cons w ws ih =>
    obtain ⟨u, s, h1, -, h2, h3, h4⟩ := capitalize_eq hT (h w List.mem_cons_self)
    rw [List.flatMap_cons, ← List.append_assoc, ih _ (fun w hw => h w (List.mem_cons_of_mem _ hw)), h1,
      splitWords_upper T _ _ _ h2, h3, List.map_append, List.map_cons, List.map_cons, h4]
    simp

/-- The words of a name of letters, digits and separators. -/
theorem plain_words {T : CharTable} (hT : T.Ascii) {s : Str} (hs : AsciiName s) {w : Str} (hw : w ∈ splitWords T s) :
    PlainWord w := by
  obtain ⟨ws, h⟩ := words_exists T s
  rw [splitWords_words (Ascii.sep hT).1 (Ascii.sep hT).2 h] at hw
  obtain ⟨c, w', h1, h2, h3, -, h5⟩ := words_mem h hw
  refine ⟨by rw [h1]; simp, ?_⟩
  intro x hx
  rcases hs x (h5 x hx) with h | h | h
  · exact h
  · subst h; exact absurd hx h2
  · subst h; exact absurd hx h3

theorem lowercase_plain {T : CharTable} (hT : T.Ascii) {w : Str} (h : PlainWord w) :
    T.lowercase w = w.map Char.toLower := hT.lowercase w (fun x hx => alphanum_lt (h.2 x hx))

end Typical
