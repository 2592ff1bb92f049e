import Verif.Front.Names
import Verif.Spec.Names
import Verif.Front.FormatNames
import Verif.Props.Identifier
import Verif.Front.ModuleLemmas

/-!
# Names in generated code (C51, C52, C53)
-/

namespace Typical

/-! ### The shapes of converted names -/

theorem PlainAscii.ascii {s : Str} (h : PlainAscii s) : AsciiName s := by
  obtain ⟨c, w, rfl, hc, hw⟩ := h
  intro d hd
  rcases List.mem_cons.mp hd with rfl | hd
  · exact .inl (by simp [Char.isAlphanum, hc])
  · rcases hw d hd with h | h
    · exact .inl h
    · exact .inr (.inl h)

theorem alpha_not_sep {c : Char} (h : c.isAlpha = true) : c ≠ '_' ∧ c ≠ '-' ∧ c.toLower.isLower = true ∧
    c.toUpper.isUpper = true ∧ c.toNat < 128 := by
  have hl : c.toNat < 128 := alphanum_lt (by simp [Char.isAlphanum, h])
  have := ascii_all (fun c => !c.isAlpha || (c ≠ '_' && c ≠ '-' && c.toLower.isLower && c.toUpper.isUpper))
    (by decide +kernel) hl
  simp only [h, Bool.not_true, Bool.false_or, Bool.and_eq_true, decide_eq_true_eq] at this
  exact ⟨this.1.1.1, this.1.1.2, this.1.2, this.2, hl⟩

theorem first_word {T : CharTable} (hT : T.Ascii) {s : Str} (h : PlainAscii s) :
    ∃ c w ws, splitWords T s = (c :: w) :: ws ∧ c.isAlpha = true ∧ ∀ v ∈ (c :: w) :: ws, PlainWord v := by
  obtain ⟨c, w, e, hc, hw⟩ := id h
  obtain ⟨ws, hws⟩ := words_exists T s
  have hsp := (C38_words T (Ascii.sep hT).1 (Ascii.sep hT).2 s ws).mpr hws
  have hp : ∀ v ∈ ws, PlainWord v := fun v hv => plain_words hT h.ascii (by rw [hsp]; exact hv)
  obtain ⟨n1, n2, -⟩ := alpha_not_sep hc
  cases hws with
  | nil => cases e
  | @separator d s' ws' hd _ =>
    simp only [List.cons.injEq] at e
    rw [e.1] at hd
    rcases hd with hd | hd
    · exact absurd hd n1
    · exact absurd hd n2
  | @word d v s' ws' h1 h2 h3 h4 h5 =>
    simp only [List.cons_append, List.cons.injEq] at e
    rw [e.1] at hsp hp
    exact ⟨c, v, ws', by rw [← hsp, e.1], hc, hp⟩

theorem snake_shape {T : CharTable} (hT : T.Ascii) {s : Str} (h : PlainAscii s) :
    ∃ c w, (Identifier.ofStr T s).snakeCase = c :: w ∧ c.isLower = true ∧
      ∀ d ∈ w, d.isLower = true ∨ d.isDigit = true ∨ d = '_' := by
  obtain ⟨c, w, ws, e, hc, hp⟩ := first_word hT h
  have hl : ∀ v ∈ (c :: w) :: ws, T.lowercase v = v.map Char.toLower :=
    fun v hv => hT.lowercase v (fun x hx => alphanum_lt ((hp v hv).2 x hx))
  have hj : ∀ d ∈ joinWith ['_'] (((c :: w) :: ws).map T.lowercase), d.isLower = true ∨ d.isDigit = true ∨ d = '_' := by
    refine joinWith_chars (by intro d hd; exact .inr (.inr (List.mem_singleton.mp hd))) _ ?_
    intro v hv d hd
    obtain ⟨u, hu, rfl⟩ := List.mem_map.mp hv
    rw [hl u hu] at hd
    obtain ⟨x, hx, rfl⟩ := List.mem_map.mp hd
    rcases toLower_alphanum ((hp u hu).2 x hx) with h | h
    · exact .inl h
    · exact .inr (.inl h)
  have he : (Identifier.ofStr T s).snakeCase = joinWith ['_'] (((c :: w) :: ws).map T.lowercase) := by
    unfold Identifier.ofStr; rw [e]
  have hh : ∃ t, joinWith ['_'] (((c :: w) :: ws).map T.lowercase) = c.toLower :: t := by
    rw [List.map_cons, hl _ (List.mem_cons_self ..), List.map_cons]
    cases ws.map T.lowercase with
    | nil => exact ⟨_, rfl⟩
    | cons a b => exact ⟨_, by rw [joinWith]; rfl⟩
  obtain ⟨t, ht⟩ := hh
  rw [ht] at he hj
  exact ⟨c.toLower, t, he, (alpha_not_sep hc).2.2.1, fun d hd => hj d (List.mem_cons_of_mem _ hd)⟩

theorem capitalize_plain {T : CharTable} (hT : T.Ascii) {w : Str} (h : PlainWord w) : ∀ c ∈ capitalize T w, c.isAlphanum = true := by
  cases w with
  | nil => exact absurd rfl h.1
  | cons c w =>
    have hc := h.2 c (List.mem_cons_self ..)
    intro d hd
    rw [capitalize, hT.toUppercase c (alphanum_lt hc), hT.lowercase w (fun x hx => alphanum_lt (h.2 x (by simp [hx])))] at hd
    simp only [List.singleton_append, List.mem_cons, List.mem_map] at hd
    rcases hd with rfl | ⟨x, hx, rfl⟩
    · have := ascii_all (fun c => !c.isAlphanum || c.toUpper.isAlphanum) (by decide +kernel) (alphanum_lt hc)
      simpa [hc] using this
    · exact lower_alphanum (toLower_alphanum (h.2 x (by simp [hx])))

theorem pascal_shape {T : CharTable} (hT : T.Ascii) {s : Str} (h : PlainAscii s) :
    ∃ c w, (Identifier.ofStr T s).pascalCase T = c :: w ∧ c.isUpper = true ∧ ∀ d ∈ w, d.isAlphanum = true := by
  obtain ⟨c, w, ws, e, hc, hp⟩ := first_word hT h
  have hall : ∀ d ∈ ((c :: w) :: ws).flatMap (capitalize T), d.isAlphanum = true := by
    intro d hd
    obtain ⟨v, hv, hd⟩ := List.mem_flatMap.mp hd
    exact capitalize_plain hT (hp v hv) d hd
  have he : (Identifier.ofStr T s).pascalCase T = ((c :: w) :: ws).flatMap (capitalize T) := by
    unfold Identifier.pascalCase Identifier.ofStr; rw [e]
  obtain ⟨-, -, -, hu, hlt⟩ := alpha_not_sep hc
  have hh : ((c :: w) :: ws).flatMap (capitalize T) = c.toUpper :: (T.lowercase w ++ ws.flatMap (capitalize T)) := by
    rw [List.flatMap_cons, capitalize, hT.toUppercase c hlt]; simp
  rw [hh] at he hall
  exact ⟨_, _, he, hu, fun d hd => hall d (List.mem_cons_of_mem _ hd)⟩

theorem camel_shape {T : CharTable} (hT : T.Ascii) {s : Str} (h : PlainAscii s) :
    ∃ c w, (Identifier.ofStr T s).camelCase T = c :: w ∧ c.isLower = true ∧ ∀ d ∈ w, d.isAlphanum = true := by
  obtain ⟨c, w, ws, e, hc, hp⟩ := first_word hT h
  have hl : T.lowercase (c :: w) = (c :: w).map Char.toLower :=
    hT.lowercase _ (fun x hx => alphanum_lt ((hp _ (List.mem_cons_self ..)).2 x hx))
  have he : (Identifier.ofStr T s).camelCase T = c.toLower :: (w.map Char.toLower ++ ws.flatMap (capitalize T)) := by
    unfold Identifier.camelCase Identifier.ofStr
    rw [e]
    show T.lowercase (c :: w) ++ _ = _
    rw [hl]; rfl
  refine ⟨_, _, he, (alpha_not_sep hc).2.2.1, ?_⟩
  intro d hd
  rcases List.mem_append.mp hd with hd | hd
  · obtain ⟨x, hx, rfl⟩ := List.mem_map.mp hd
    exact lower_alphanum (toLower_alphanum ((hp _ (List.mem_cons_self ..)).2 x (by simp [hx])))
  · obtain ⟨v, hv, hd⟩ := List.mem_flatMap.mp hd
    exact capitalize_plain hT (hp v (List.mem_cons_of_mem _ hv)) d hd

theorem lower_facts {c : Char} (h : c.isLower = true) : c.isAlpha = true ∧ c.isUpper = false := by
  have := ascii_all (fun c => !c.isLower || (c.isAlpha && !c.isUpper)) (by decide +kernel)
    (alphanum_lt (lower_alphanum (.inl h)))
  simpa [h] using this

theorem upper_facts {c : Char} (h : c.isUpper = true) : c.isAlpha = true ∧ c.isLower = false := by
  have ha : c.isAlpha = true := by simp [Char.isAlpha, h]
  have hn : c.isAlphanum = true := by simp [Char.isAlphanum, ha]
  have := ascii_all (fun c => !c.isUpper || !c.isLower) (by decide +kernel) (alphanum_lt hn)
  exact ⟨ha, by simpa [h] using this⟩

theorem any_isWord (ks : List String) (s : Str) : ks.any (fun k => k.toList == s) = true ↔ IsWord ks s := by
  simp only [List.any_eq_true, beq_iff_eq, IsWord]
  exact ⟨fun ⟨k, h1, h2⟩ => ⟨k, h1, h2.symm⟩, fun ⟨k, h1, h2⟩ => ⟨k, h1, h2.symm⟩⟩

theorem rustEscape_pos {s : Str} (h : IsWord rustKeywords s) : rustEscape s = 'r' :: '#' :: s := by
  unfold rustEscape; rw [if_pos ((any_isWord _ _).mpr h)]

theorem rustEscape_neg {s : Str} (h : ¬ IsWord rustKeywords s) : rustEscape s = s := by
  unfold rustEscape; rw [if_neg (fun g => h ((any_isWord _ _).mp g))]

theorem tsEscape_pos {s : Str} (h : IsWord tsKeywords s) : tsEscape s = '_' :: s := by
  unfold tsEscape; rw [if_pos ((any_isWord _ _).mpr h)]

theorem tsEscape_neg {s : Str} (h : ¬ IsWord tsKeywords s) : tsEscape s = s := by
  unfold tsEscape; rw [if_neg (fun g => h ((any_isWord _ _).mp g))]

theorem IsWord.mono {ks ks' : List String} (h : ∀ k ∈ ks, k ∈ ks') {s : Str} (hs : IsWord ks s) : IsWord ks' s := by
  obtain ⟨k, hk, e⟩ := hs
  exact ⟨k, h k hk, e⟩

/-- A word is no raw identifier and vice versa. -/
theorem not_word_hash {s t : Str} (e : ∃ a, s = a ++ '#' :: t) : ¬ RustWord s := by
  rintro ⟨c, w, rfl, hc, hw⟩
  obtain ⟨a, e⟩ := e
  have hm : '#' ∈ c :: w := by rw [e]; simp
  rcases List.mem_cons.mp hm with h | h
  · rw [← h] at hc
    rcases hc with hc | ⟨hc, -⟩
    · exact absurd hc (by decide)
    · exact absurd hc (by decide)
  · rcases hw _ h with h | h
    · exact absurd h (by decide)
    · exact absurd h (by decide)

theorem rustIdentifier_raw {ks : List String} {s : Str} (hs : RustWord s) :
    RustIdentifier ks ('r' :: '#' :: s) ↔ ¬ IsWord ["crate", "self", "super", "Self"] s := by
  constructor
  · rintro (⟨h, -⟩ | ⟨w, e, -, h⟩)
    · exact absurd h (not_word_hash ⟨['r'], rfl⟩)
    · simp only [List.cons.injEq, true_and] at e
      rw [e]; exact h
  · intro h; exact .inr ⟨s, rfl, hs, h⟩

/-- C52 for Rust, names of fields of structs and of modules (snake case): the written name is an identifier iff it is not
`crate`, `self` or `super`. -/
theorem C52_rust_fields_partial {T : CharTable} (hT : T.Ascii) {a : Str} (h : PlainAscii a) :
    RustIdentifier rust2021 (rustSnake (Identifier.ofStr T a)) ↔
      ¬ IsWord ["crate", "self", "super"] (Identifier.ofStr T a).snakeCase := by
  obtain ⟨c, w, e, hc, hw⟩ := snake_shape hT h
  unfold rustSnake
  rw [e]
  have hword : RustWord (c :: w) := ⟨c, w, rfl, .inl (lower_facts hc).1, fun d hd => by
    rcases hw d hd with h | h | h
    · exact .inl (lower_alphanum (.inl h))
    · exact .inl (lower_alphanum (.inr h))
    · exact .inr h⟩
  by_cases hk : IsWord rustKeywords (c :: w)
  · rw [rustEscape_pos hk, rustIdentifier_raw hword]
    refine not_congr ⟨?_, IsWord.mono (by decide)⟩
    rintro ⟨k, hk, e⟩
    simp only [List.mem_cons, List.not_mem_nil, or_false] at hk
    rcases hk with rfl | rfl | rfl | rfl
    · exact ⟨_, by decide, e⟩
    · exact ⟨_, by decide, e⟩
    · exact ⟨_, by decide, e⟩
    · simp at e
      rw [e.1] at hc
      exact absurd hc (by decide)
  · rw [rustEscape_neg hk]
    constructor
    · intro _ g; exact hk (g.mono (by decide +kernel))
    · intro _
      exact .inl ⟨hword, fun g => hk (g.mono (by decide +kernel))⟩

/-- C52 for Rust, names of variants of choices (Pascal case): the written name is an identifier iff it is not `Self`. -/
theorem C52_rust_variants_partial {T : CharTable} (hT : T.Ascii) {a : Str} (h : PlainAscii a) :
    RustIdentifier rust2021 (rustPascal T (Identifier.ofStr T a) none) ↔
      (Identifier.ofStr T a).pascalCase T ≠ "Self".toList := by
  obtain ⟨c, w, e, hc, hw⟩ := pascal_shape hT h
  unfold rustPascal withSuffix
  rw [e]
  have hword : RustWord (c :: w) := ⟨c, w, rfl, .inl (upper_facts hc).1, fun d hd => .inl (hw d hd)⟩
  have only : ∀ ks : List String, (∀ k ∈ ks, k = "Self" ∨ ∃ d v, k.toList = d :: v ∧ d.isUpper = false) →
      IsWord ks (c :: w) → c :: w = "Self".toList := by
    rintro ks hks ⟨k, hk, e⟩
    rcases hks k hk with rfl | ⟨d, v, h1, h2⟩
    · exact e
    · rw [h1] at e
      simp only [List.cons.injEq] at e
      rw [e.1, h2] at hc
      cases hc
  have dec : ∀ ks : List String, (ks.all fun k => k == "Self" || (k.toList.head?.any (fun d => !d.isUpper))) = true →
      ∀ k ∈ ks, k = "Self" ∨ ∃ d v, k.toList = d :: v ∧ d.isUpper = false := by
    intro ks h k hk
    have := List.all_eq_true.mp h k hk
    simp only [Bool.or_eq_true, beq_iff_eq] at this
    rcases this with h | h
    · exact .inl h
    · cases hl : k.toList with
      | nil => rw [hl] at h; simp at h
      | cons d v => rw [hl] at h; exact .inr ⟨d, v, rfl, by simpa using h⟩
  by_cases hk : IsWord rustKeywords (c :: w)
  · rw [rustEscape_pos hk, rustIdentifier_raw hword]
    refine not_congr ⟨only _ (dec _ (by decide +kernel)), fun h => ⟨"Self", by decide, h⟩⟩
  · rw [rustEscape_neg hk]
    constructor
    · intro _ g; exact hk ⟨"Self", by decide +kernel, g⟩
    · intro _
      exact .inl ⟨hword, fun g => hk (g.mono (by decide +kernel))⟩

theorem plain_join {a : Str} (h : PlainAscii a) (x : NameSuffix) : PlainAscii (a ++ ['_'] ++ x.text) := by
  obtain ⟨c, w, rfl, hc, hw⟩ := h
  refine ⟨c, w ++ ['_'] ++ x.text, by simp, hc, ?_⟩
  intro d hd
  simp only [List.mem_append] at hd
  rcases hd with (hd | hd) | hd
  · exact hw d hd
  · exact .inr (List.mem_singleton.mp hd)
  · left
    have all : ∀ x : NameSuffix, ∀ c ∈ x.text, c.isAlphanum = true := by intro x; cases x <;> decide
    exact all x d hd

theorem pascal_suffix {T : CharTable} (hT : T.Ascii) (a : Str) (x : NameSuffix) :
    (Identifier.ofStr T (a ++ ['_'] ++ x.text)).pascalCase T = (Identifier.ofStr T a).pascalCase T ++ x.text := by
  have hs : splitWords T (a ++ ['_'] ++ x.text) = splitWords T a ++ [x.text] := by
    cases x
    · exact suffix_words hT a .atlas
    · exact suffix_words hT a .in_
    · exact suffix_words hT a .out
  unfold Identifier.pascalCase Identifier.ofStr
  rw [hs]
  rw [List.flatMap_append]
  congr 1
  have hc : ∀ c w, x.text = c :: w → (∀ d ∈ c :: w, d.toNat < 128) → c.toUpper = c → w.map Char.toLower = w →
      capitalize T x.text = x.text := by
    intro c w e h1 h2 h3
    rw [e, capitalize, hT.toUppercase c (h1 c (by simp)), hT.lowercase w (fun d hd => h1 d (by simp [hd])), h2, h3]
    rfl
  simp only [List.flatMap_cons, List.flatMap_nil, List.append_nil]
  cases x
  · exact hc _ _ rfl (by decide) (by decide) (by decide)
  · exact hc _ _ rfl (by decide) (by decide) (by decide)
  · exact hc _ _ rfl (by decide) (by decide) (by decide)

theorem pascal_ends {T : CharTable} (hT : T.Ascii) (a : Str) (x : NameSuffix) :
    ∃ p, (Identifier.ofStr T (a ++ ['_'] ++ x.text)).pascalCase T = p ++ x.text := ⟨_, pascal_suffix hT a x⟩

/-- C52 for Rust, names of types (Pascal case with a suffix): always an identifier. -/
theorem C52_rust_types {T : CharTable} (hT : T.Ascii) {a : Str} (h : PlainAscii a) (x : NameSuffix) :
    RustIdentifier rust2024 (rustPascal T (Identifier.ofStr T a) (some x)) := by
  have hj := (C52_rust_variants_partial hT (plain_join h x)).mpr (by
    obtain ⟨p, hp⟩ := pascal_ends hT a x
    rw [hp]
    intro e
    have := congrArg List.getLast? e
    rw [List.getLast?_append] at this
    revert this
    cases x <;> simp [NameSuffix.text])
  obtain ⟨c, w, e, hc, hw⟩ := pascal_shape hT (plain_join h x)
  have key : rustPascal T (Identifier.ofStr T a) (some x) =
      rustPascal T (Identifier.ofStr T (a ++ ['_'] ++ x.text)) none := rfl
  rw [key]
  rcases hj with ⟨h1, h2⟩ | h
  · refine .inl ⟨h1, ?_⟩
    rintro ⟨k, hk, e'⟩
    rcases List.mem_cons.mp hk with rfl | hk
    · unfold rustPascal withSuffix at e'
      rw [e] at e'
      by_cases hk : IsWord rustKeywords (c :: w)
      · rw [rustEscape_pos hk] at e'; simp at e'
      · rw [rustEscape_neg hk] at e'
        simp at e'
        rw [e'.1] at hc
        exact absurd hc (by decide)
    · exact h2 ⟨k, hk, e'⟩
  · exact .inr h

/-- C52 for Rust, local variables for the fields of structs: the written name is an identifier iff the field is not named
like a keyword (including `union` and `macro_rules`, which are keywords only in some contexts). -/
theorem C52_rust_locals_partial {T : CharTable} (hT : T.Ascii) {a : Str} (h : PlainAscii a) :
    RustIdentifier rust2021 (rustLocal (Identifier.ofStr T a)) ↔
      ¬ IsWord ("macro_rules" :: "union" :: rust2021) (Identifier.ofStr T a).snakeCase := by
  obtain ⟨c, w, e, hc, hw⟩ := snake_shape hT h
  unfold rustLocal rustSnake
  rw [e]
  by_cases hk : IsWord rustKeywords (c :: w)
  · rw [rustEscape_pos hk]
    constructor
    · rintro (⟨h, -⟩ | ⟨w, e, -, h⟩)
      · exact absurd h (not_word_hash ⟨['_', 'r'], rfl⟩)
      · simp at e
    · intro g
      exact absurd (hk.mono (by decide +kernel)) g
  · rw [rustEscape_neg hk]
    constructor
    · intro _ g; exact hk (g.mono (by decide +kernel))
    · intro _
      refine .inl ⟨⟨'_', c :: w, rfl, .inr ⟨rfl, by simp⟩, ?_⟩, ?_⟩
      · intro d hd
        rcases List.mem_cons.mp hd with rfl | hd
        · exact .inl (lower_alphanum (.inl hc))
        · rcases hw d hd with h | h | h
          · exact .inl (lower_alphanum (.inl h))
          · exact .inl (lower_alphanum (.inr h))
          · exact .inr h
      · rintro ⟨k, hk, e'⟩
        have all : ∀ k ∈ rust2021, k.toList.head? ≠ some '_' := by decide +kernel
        exact all k hk (by rw [← e']; rfl)

/-- C52 (witnesses): a field `type` of a struct is legal in a schema, but the generated Rust declares the variable `_r#type`; a file
`self.t` or a field `super` gives a raw identifier which Rust forbids; in edition 2024 a field `gen` is not escaped. -/
theorem C52_rust_witness :
    rustLocal (Identifier.ofStr asciiTable "type".toList) = "_r#type".toList ∧
    ¬ RustIdentifier rust2021 "_r#type".toList ∧
    rustSnake (Identifier.ofStr asciiTable "self".toList) = "r#self".toList ∧
    ¬ RustIdentifier rust2021 "r#self".toList ∧
    rustSnake (Identifier.ofStr asciiTable "gen".toList) = "gen".toList ∧
    ¬ RustIdentifier rust2024 "gen".toList := by
  have hp : ∀ s : String, (match s.toList with
      | [] => false
      | c :: w => c.isAlpha && w.all (fun d => d.isAlphanum || d == '_')) = true → PlainAscii s.toList := by
    intro s hs
    cases h : s.toList with
    | nil => rw [h] at hs; cases hs
    | cons c w =>
      rw [h] at hs
      simp only [Bool.and_eq_true, List.all_eq_true, Bool.or_eq_true, beq_iff_eq] at hs
      exact ⟨c, w, rfl, hs.1, hs.2⟩
  have hT : asciiTable.Ascii := asciiTable_ascii
  have t1 : rustLocal (Identifier.ofStr asciiTable "type".toList) = "_r#type".toList := by decide +kernel
  have t2 : rustSnake (Identifier.ofStr asciiTable "self".toList) = "r#self".toList := by decide +kernel
  refine ⟨t1, ?_, t2, ?_, by decide +kernel, ?_⟩
  · rw [← t1, C52_rust_locals_partial hT (hp "type" (by decide +kernel)), Classical.not_not]
    exact ⟨"type", by decide +kernel, by decide +kernel⟩
  · rw [← t2, C52_rust_fields_partial hT (hp "self" (by decide +kernel)), Classical.not_not]
    exact ⟨"self", by decide +kernel, by decide +kernel⟩
  · rintro (⟨-, h⟩ | ⟨w, e, -⟩)
    · exact h ⟨"gen", by decide, rfl⟩
    · simp at e

/-! ### TypeScript -/

theorem js_of_shape {c : Char} {w : Str} (hc : c.isAlpha = true) (hw : ∀ d ∈ w, d.isAlphanum = true) :
    JsIdentifier (tsEscape (c :: w)) := by
  by_cases hk : IsWord tsKeywords (c :: w)
  · rw [tsEscape_pos hk]
    refine ⟨⟨'_', c :: w, rfl, .inr (.inl rfl), ?_⟩, ?_⟩
    · intro d hd
      rcases List.mem_cons.mp hd with rfl | hd
      · exact .inl (by simp [Char.isAlphanum, hc])
      · exact .inl (hw d hd)
    · rintro ⟨k, hk, e'⟩
      have all : ∀ k ∈ jsReserved, k.toList.head? ≠ some '_' := by decide +kernel
      exact all k hk (by rw [← e']; rfl)
  · rw [tsEscape_neg hk]
    exact ⟨⟨c, w, rfl, .inl hc, fun d hd => .inl (hw d hd)⟩, fun g => hk (g.mono (by decide +kernel))⟩

/-- C52 for TypeScript: the names of properties, of types and namespaces, and of local variables are identifiers. -/
theorem C52_typescript {T : CharTable} (hT : T.Ascii) {a : Str} (h : PlainAscii a) :
    JsIdentifier (tsCamel T (Identifier.ofStr T a)) ∧ (∀ x, JsIdentifier (tsPascal T (Identifier.ofStr T a) x)) ∧
      JsIdentifier (tsLocal T (Identifier.ofStr T a)) := by
  obtain ⟨c, w, e, hc, hw⟩ := camel_shape hT h
  have h1 : JsIdentifier (tsCamel T (Identifier.ofStr T a)) := by
    unfold tsCamel; rw [e]; exact js_of_shape (lower_facts hc).1 hw
  refine ⟨h1, ?_, ?_⟩
  · intro x
    have key : ∀ b, PlainAscii b → JsIdentifier (tsEscape ((Identifier.ofStr T b).pascalCase T)) := by
      intro b hb
      obtain ⟨c, w, e, hc, hw⟩ := pascal_shape hT hb
      rw [e]; exact js_of_shape (upper_facts hc).1 hw
    cases x with
    | none => exact key a h
    | some x => exact key _ (plain_join h x)
  · obtain ⟨⟨d, v, e1, hd, hv⟩, -⟩ := h1
    unfold tsLocal
    rw [e1]
    refine ⟨⟨'$', d :: v, rfl, .inr (.inr rfl), ?_⟩, ?_⟩
    · intro x hx
      rcases List.mem_cons.mp hx with rfl | hx
      · rcases hd with hd | hd
        · exact .inl (by simp [Char.isAlphanum, hd])
        · exact .inr hd
      · exact hv x hx
    · rintro ⟨k, hk, e'⟩
      have all : ∀ k ∈ jsReserved, k.toList.head? ≠ some '$' := by decide +kernel
      exact all k hk (by rw [← e']; rfl)

theorem tsEscape_inj {a b : Str} (ha : a.head? ≠ some '_') (hb : b.head? ≠ some '_') (h : tsEscape a = tsEscape b) : a = b := by
  by_cases h1 : IsWord tsKeywords a
  · by_cases h2 : IsWord tsKeywords b
    · rw [tsEscape_pos h1, tsEscape_pos h2] at h; exact (List.cons.inj h).2
    · rw [tsEscape_pos h1, tsEscape_neg h2] at h; rw [← h] at hb; simp at hb
  · by_cases h2 : IsWord tsKeywords b
    · rw [tsEscape_neg h1, tsEscape_pos h2] at h; rw [h] at ha; simp at ha
    · rwa [tsEscape_neg h1, tsEscape_neg h2] at h

/-! ### C51: the field of a choice -/

/-- The keys of the object for a field of a choice, by the generated type: `/repo/src/generate_typescript.rs` lines 1410-1433. -/
def outKeys (T : CharTable) (f : Field) : List Str :=
  tsCamel T f.name :: if f.rule = .required then [] else ["$fallback".toList]

theorem camel_not_fallback {T : CharTable} (hT : T.Ascii) {a : Str} (h : PlainAscii a) :
    tsCamel T (Identifier.ofStr T a) ≠ "$fallback".toList := by
  obtain ⟨c, w, e, hc, hw⟩ := camel_shape hT h
  unfold tsCamel
  rw [e]
  intro g
  by_cases hk : IsWord tsKeywords (c :: w)
  · rw [tsEscape_pos hk] at g; simp at g
  · rw [tsEscape_neg hk] at g
    simp at g
    rw [g.1] at hc
    exact absurd hc (by decide)

/-- C51: an object for a field of a choice is taken for that field iff no field before it has the same name in TypeScript or the
name of a property which all objects inherit. -/
theorem C51_dispatch_iff_partial {T : CharTable} (hT : T.Ascii) (pre post : List Field) (f : Field)
    (hn : ∀ g ∈ pre, ∃ a, PlainAscii a ∧ g.name = Identifier.ofStr T a) :
    tsDispatch T (hasProperty (outKeys T f)) (pre ++ f :: post) = pre.length ↔
      ∀ g ∈ pre, tsCamel T g.name ≠ tsCamel T f.name ∧ ¬ IsWord objectPrototype (tsCamel T g.name) := by
  have self : hasProperty (outKeys T f) (tsCamel T f.name) = true := by
    unfold hasProperty outKeys
    rw [List.contains_cons, beq_self_eq_true, Bool.true_or, Bool.true_or]
  have other : ∀ g ∈ pre, (hasProperty (outKeys T f) (tsCamel T g.name) = false ↔
      tsCamel T g.name ≠ tsCamel T f.name ∧ ¬ IsWord objectPrototype (tsCamel T g.name)) := by
    intro g hg
    obtain ⟨a, ha, e⟩ := hn g hg
    have hf := camel_not_fallback hT ha
    rw [← e] at hf
    rw [← any_isWord]
    unfold hasProperty outKeys
    generalize objectPrototype.any _ = q
    by_cases hr : f.rule = .required
    · simp only [hr, if_true, List.contains_cons, List.contains_nil, Bool.or_false, Bool.or_eq_false_iff, beq_eq_false_iff_ne,
        Bool.not_eq_true]
    · simp only [hr, if_false]
      simp only [List.contains_cons, List.contains_nil, Bool.or_false, Bool.or_eq_false_iff, beq_eq_false_iff_ne]
      constructor
      · rintro ⟨⟨h1, -⟩, h2⟩; exact ⟨h1, by rw [h2]; exact Bool.false_ne_true⟩
      · rintro ⟨h1, h2⟩; exact ⟨⟨h1, hf⟩, Bool.eq_false_iff.mpr h2⟩
  unfold tsDispatch
  rw [List.findIdx_append]
  constructor
  · intro h g hg
    rw [← other g hg]
    cases hp : hasProperty (outKeys T f) (tsCamel T g.name) with
    | false => rfl
    | true =>
      have hlt := List.findIdx_lt_length_of_exists (p := fun f' : Field => hasProperty (outKeys T f) (tsCamel T f'.name)) ⟨g, hg, hp⟩
      rw [if_pos hlt] at h
      omega
  · intro h
    have hge : pre.findIdx (fun f' => hasProperty (outKeys T f) (tsCamel T f'.name)) = pre.length :=
      List.findIdx_eq_length.mpr (fun g hg => (other g hg).mpr (h g hg))
    rw [if_neg (by omega), List.findIdx_cons]
    rw [self]
    simp only [cond_true, Nat.zero_add]

/-- C51, a sufficient condition: the names of the fields are different (which the validator ensures), without words that begin with a
digit, and none is inherited by all objects. -/
theorem C51_dispatch_partial {T : CharTable} (hT : T.Ascii) (fields : List Field)
    (hn : ∀ g ∈ fields, ∃ a, PlainAscii a ∧ NoDigitWord T a ∧ g.name = Identifier.ofStr T a)
    (hd : fields.Pairwise (fun g g' => g.name.same g'.name = false))
    (ho : ∀ g ∈ fields, ¬ IsWord objectPrototype (tsCamel T g.name)) :
    ∀ pre f post, fields = pre ++ f :: post → tsDispatch T (hasProperty (outKeys T f)) fields = pre.length := by
  intro pre f post e
  subst e
  rw [C51_dispatch_iff_partial hT pre post f (fun g hg => by
    obtain ⟨a, h1, -, h2⟩ := hn g (List.mem_append_left _ hg); exact ⟨a, h1, h2⟩)]
  intro g hg
  refine ⟨?_, ho g (List.mem_append_left _ hg)⟩
  obtain ⟨a, a1, a2, a3⟩ := hn g (List.mem_append_left _ hg)
  obtain ⟨b, b1, b2, b3⟩ := hn f (List.mem_append_right _ (List.mem_cons_self ..))
  have hne := (List.pairwise_append.mp hd).2.2 g hg f (List.mem_cons_self ..)
  rw [a3, b3] at hne ⊢
  have := (C38_generated_names_distinct T hT a b a1.ascii b1.ascii a2 b2 hne).2.2
  intro h
  apply this
  obtain ⟨c, w, e, hc, -⟩ := camel_shape hT a1
  obtain ⟨c', w', e', hc', -⟩ := camel_shape hT b1
  refine tsEscape_inj ?_ ?_ h
  · rw [e]; intro g; simp at g; rw [g] at hc; exact absurd hc (by decide)
  · rw [e']; intro g; simp at g; rw [g] at hc'; exact absurd hc' (by decide)

/-- C51 (witness): in a choice whose first field is `to_string`, the object for the second field is taken for the first, because all
objects inherit `toString`. -/
theorem C51_inherited_witness :
    let field (name : String) (index : Nat) : Field :=
      ⟨⟨0, 0⟩, [], .required, Identifier.ofStr asciiTable name.toList, ⟨⟨0, 0⟩, .string⟩, index⟩
    tsDispatch asciiTable (hasProperty (outKeys asciiTable (field "number" 1))) [field "to_string" 0, field "number" 1] = 0 := by
  decide +kernel

/-- The conditions can be met. -/
example : tsDispatch asciiTable (hasProperty (outKeys asciiTable
      ⟨⟨0, 0⟩, [], .optional, Identifier.ofStr asciiTable "delete".toList, ⟨⟨0, 0⟩, .unit⟩, 1⟩))
    [⟨⟨0, 0⟩, [], .required, Identifier.ofStr asciiTable "add_user".toList, ⟨⟨0, 0⟩, .string⟩, 0⟩,
     ⟨⟨0, 0⟩, [], .optional, Identifier.ofStr asciiTable "delete".toList, ⟨⟨0, 0⟩, .unit⟩, 1⟩] = 1 := by
  decide +kernel

/-! ### C53: built-in objects in the generated TypeScript -/

/-- The built-in values used in the code generated for a declaration: `/repo/src/generate_typescript.rs` lines 865, 883, 952, 1240,
1269, 1499-1545, 1769, 1823, 1871, 2014, 2059, 2078-2080, 2136, 2255, 2267, 2273, 2330, 2368, 2472. -/
def tsBuiltins : List String :=
  ["Array", "ArrayBuffer", "BigInt", "DataView", "Error", "Number", "Object", "RangeError", "Uint8Array"]

/-- The namespace with this path exports a value of this name: a module inside it, or the namespace generated for a type. -/
def exportsValue (T : CharTable) (m : Module) (path : List Str) (name : Str) : Prop :=
  ∃ children schema, m.find path = some (.mk children schema) ∧
    ((∃ i ∈ children.names, tsPascal T i none = name) ∨ ∃ d ∈ schema.declarations, tsPascal T d.name none = name)

/-- In the code inside the namespace with the path `current`, the name refers to the global value: no namespace around the code
exports it. -/
def refersToGlobal (T : CharTable) (m : Module) (current : List Str) (name : Str) : Prop :=
  ∀ n ≤ current.length, ¬ exportsValue T m (current.take n) name

mutual
def Module.Only (P : Identifier → Prop) (Q : Declaration → Prop) : Module → Prop
  | .mk children schema => children.Only P Q ∧ ∀ d ∈ schema.declarations, Q d
def Modules.Only (P : Identifier → Prop) (Q : Declaration → Prop) : Modules → Prop
  | .nil => True
  | .cons i m rest => P i ∧ m.Only P Q ∧ rest.Only P Q
end

theorem Modules.Only.get {P : Identifier → Prop} {Q : Declaration → Prop} {k : Str} {m : Module} : ∀ {ms : Modules},
    ms.Only P Q → ms.get k = some m → m.Only P Q
  | .nil, _, h => by simp [Modules.get] at h
  | .cons i m' rest, ho, h => by
    rw [Modules.Only] at ho
    rw [Modules.get] at h
    split at h
    · cases h; exact ho.2.1
    · exact ho.2.2.get h

theorem Modules.Only.set {P : Identifier → Prop} {Q : Declaration → Prop} {k : Str} {m : Module} (hm : m.Only P Q) :
    ∀ {ms : Modules}, ms.Only P Q → (ms.set k m).Only P Q
  | .nil, _ => by simp [Modules.set, Modules.Only]
  | .cons i m' rest, ho => by
    rw [Modules.Only] at ho
    rw [Modules.set]
    split
    · rw [Modules.Only]; exact ⟨ho.1, hm, ho.2.2⟩
    · rw [Modules.Only]; exact ⟨ho.1, ho.2.1, ho.2.2.set hm⟩

theorem Modules.Only.insert {P : Identifier → Prop} {Q : Declaration → Prop} {k : Identifier} {m : Module} (hk : P k)
    (hm : m.Only P Q) : ∀ {ms : Modules}, ms.Only P Q → (ms.insert k m).Only P Q
  | .nil, _ => by simp [Modules.insert, Modules.Only, hk, hm]
  | .cons i m' rest, ho => by
    rw [Modules.insert]
    split
    · rw [Modules.Only]; exact ⟨hk, hm, ho⟩
    · rw [Modules.Only] at ho ⊢; exact ⟨ho.1, ho.2.1, ho.2.2.insert hk hm⟩

theorem insertSchema_only {P : Identifier → Prop} {Q : Declaration → Prop} {s : Schema} (hs : ∀ d ∈ s.declarations, Q d) :
    ∀ (p : List Identifier) (m : Module), (∀ i ∈ p, P i) → m.Only P Q → (insertSchema m p s).Only P Q
  | [], .mk children s0, _, hm => by
    rw [insertSchema, Module.Only] at *; exact ⟨hm.1, hs⟩
  | i :: p, .mk children s0, hp, hm => by
    rw [Module.Only] at hm
    rw [insertSchema]
    cases h : children.get i.snakeCase with
    | some child =>
      dsimp only
      rw [Module.Only]
      exact ⟨hm.1.set (insertSchema_only hs p child (fun j hj => hp j (by simp [hj])) (hm.1.get h)), hm.2⟩
    | none =>
      dsimp only
      rw [Module.Only]
      refine ⟨hm.1.insert (hp i (by simp)) (insertSchema_only hs p .empty (fun j hj => hp j (by simp [hj])) ?_), hm.2⟩
      simp [Module.empty, Module.Only, Modules.Only, emptySchema]

theorem buildTree_only {P : Identifier → Prop} {Q : Declaration → Prop} (S : Schemas)
    (h : ∀ e ∈ S, (∀ i ∈ e.1.components, P i) ∧ ∀ d ∈ e.2.declarations, Q d) : (buildTree S).Only P Q := by
  have key : ∀ (l : Schemas) (m : Module), (∀ e ∈ l, (∀ i ∈ e.1.components, P i) ∧ ∀ d ∈ e.2.declarations, Q d) →
      m.Only P Q → (l.foldl (fun m e => insertSchema m e.1.components e.2) m).Only P Q := by
    intro l
    induction l with
    | nil => intro m _ hm; exact hm
    | cons e l ih =>
      intro m hl hm
      have he := hl e (List.mem_cons_self ..)
      exact ih _ (fun e' h' => hl e' (List.mem_cons_of_mem _ h')) (insertSchema_only he.2 _ _ he.1 hm)
  exact key S _ h (by simp [Module.empty, Module.Only, Modules.Only, emptySchema])

theorem Module.Only.find {P : Identifier → Prop} {Q : Declaration → Prop} : ∀ (path : List Str) {m m' : Module},
    m.Only P Q → m.find path = some m' → m'.Only P Q
  | [], m, m', ho, h => by
    cases m with
    | mk ms s => rw [Module.find] at h; cases h; exact ho
  | k :: path, .mk ms s, m', ho, h => by
    rw [Module.find_cons] at h
    cases hg : ms.get k with
    | none => rw [hg] at h; cases h
    | some c =>
      rw [hg] at h
      rw [Module.Only] at ho
      exact Module.Only.find path (ho.1.get hg) h

theorem Modules.Only.names {P : Identifier → Prop} {Q : Declaration → Prop} : ∀ {ms : Modules}, ms.Only P Q →
    ∀ i ∈ ms.names, P i
  | .nil, _, i, hi => by simp [Modules.names] at hi
  | .cons j m rest, ho, i, hi => by
    rw [Modules.Only] at ho
    rw [Modules.names] at hi
    rcases List.mem_cons.mp hi with rfl | hi
    · exact ho.1
    · exact ho.2.2.names i hi

/-- C53, the condition: if neither a part of the path of a file nor a declaration has the name of a built-in object, then every
use of a built-in object in the generated code refers to that object. -/
theorem C53_builtins_partial (T : CharTable) (S : Schemas) (name : String) (current : List Str)
    (hf : ∀ e ∈ S, ∀ i ∈ e.1.components, tsPascal T i none ≠ name.toList)
    (hd : ∀ e ∈ S, ∀ d ∈ e.2.declarations, tsPascal T d.name none ≠ name.toList) :
    refersToGlobal T (buildTree S) current name.toList := by
  have ho : (buildTree S).Only (fun i => tsPascal T i none ≠ name.toList) (fun d => tsPascal T d.name none ≠ name.toList) :=
    buildTree_only S (fun e he => ⟨hf e he, hd e he⟩)
  rintro n - ⟨children, schema, hm, hx⟩
  have h := ho.find _ hm
  rw [Module.Only] at h
  rcases hx with ⟨i, hi, e⟩ | ⟨d, hd, e⟩
  · exact h.1.names i hi e
  · exact h.2 d hd e

/-- C53 (witness): if a file declares a type `error`, the generated code of that file which throws `new Error(…)` refers to
the namespace generated for the type. (`Error` is among the built-in objects it uses.) -/
theorem C53_error_witness :
    let ns : Namespace := ⟨[Identifier.ofStr asciiTable "types".toList]⟩
    let error : Declaration := ⟨⟨0, 0⟩, [], .struct, Identifier.ofStr asciiTable "Error".toList, [], []⟩
    "Error" ∈ tsBuiltins ∧ ¬ refersToGlobal asciiTable (buildTree [(ns, ⟨[], [], [error]⟩)]) ns.key "Error".toList := by
  refine ⟨by decide, ?_⟩
  intro h
  refine h 1 (by decide +kernel) ⟨.nil, _, rfl, .inr ⟨_, List.mem_singleton_self _, ?_⟩⟩
  decide +kernel

end Typical
