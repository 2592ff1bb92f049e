import Verif.Front.LexLemmas

/-!
# Each division of the source into tokens is what the tokenizer computes
-/

namespace Typical

theorem keyword_chars {k : String} {v : TokVariant} (h : (k, v) ∈ keywordTable) :
    ∃ c w, k.toList = c :: w ∧ c.isAlpha = true ∧ c.toNat < 128 ∧ ∀ d ∈ w, d.isAlphanum = true ∧ d.toNat < 128 := by
  have all : ∀ kv ∈ keywordTable, ∃ c w, kv.1.toList = c :: w ∧
      (c.isAlpha && c.toNat < 128 && w.all (fun d => d.isAlphanum && d.toNat < 128)) = true := by
    intro kv hkv
    simp only [keywordTable, List.mem_cons, List.not_mem_nil, or_false] at hkv
    rcases hkv with rfl | rfl | rfl | rfl | rfl | rfl | rfl | rfl | rfl | rfl | rfl | rfl | rfl | rfl <;>
      exact ⟨_, _, rfl, by decide⟩
  obtain ⟨c, w, h1, h2⟩ := all _ h
  simp only [Bool.and_eq_true, decide_eq_true_eq, List.all_eq_true] at h2
  exact ⟨c, w, h1, h2.1.1, h2.1.2, h2.2⟩

theorem symbol?_none {c : Char} (h : ∀ x v, (x, v) ∈ symbolTable → c ≠ x) : symbol? c = none := by
  cases hs : symbol? c with
  | none => rfl
  | some v => exact absurd rfl (h c v ((symbol?_iff c v).mp hs))

theorem symbol_ascii {c : Char} {v : TokVariant} (h : (c, v) ∈ symbolTable) :
    c.toNat < 128 ∧ c.isAlpha = false ∧ c.isAlphanum = false ∧ c.isDigit = false ∧ c ≠ '$' ∧ c ≠ '\'' ∧ c ≠ '#' ∧ c ≠ '_' ∧
      (c == ' ' || (9 ≤ c.toNat && c.toNat ≤ 13)) = false ∧ c.utf8Size = 1 := by
  simp only [symbolTable, List.mem_cons, Prod.mk.injEq, List.not_mem_nil, or_false] at h
  rcases h with ⟨rfl, rfl⟩ | ⟨rfl, rfl⟩ | ⟨rfl, rfl⟩ | ⟨rfl, rfl⟩ | ⟨rfl, rfl⟩ | ⟨rfl, rfl⟩ | ⟨rfl, rfl⟩ <;> decide

theorem not_symbol_of_alphabetic {T : CharTable} (hT : T.Ascii) {c : Char} (h : T.isAlphabetic c = true) :
    ∀ x v, (x, v) ∈ symbolTable → c ≠ x := by
  intro x v hx he
  subst he
  have := symbol_ascii hx
  rw [hT.isAlphabetic c this.1, this.2.1] at h
  cases h

theorem isDigit_ascii {c : Char} (h : c.isDigit = true) : c.toNat < 128 ∧ c.isAlpha = false ∧ c.isAlphanum = true ∧
    c ≠ '_' ∧ c ≠ '$' ∧ c ≠ '#' ∧ c ≠ '\'' ∧ (c == ' ' || (9 ≤ c.toNat && c.toNat ≤ 13)) = false ∧
    (∀ x v, (x, v) ∈ symbolTable → c ≠ x) ∧ c.utf8Size = 1 := by
  have h1 : 48 ≤ c.toNat ∧ c.toNat ≤ 57 := by
    simp only [Char.isDigit, Bool.and_eq_true, decide_eq_true_eq] at h
    exact ⟨h.1, h.2⟩
  have hc : c.toNat < 128 := by omega
  have key := ascii_all (fun c => !c.isDigit || (!c.isAlpha && c.isAlphanum && c != '_' && c != '$' && c != '#' && c != '\'' &&
    !(c == ' ' || (9 ≤ c.toNat && c.toNat ≤ 13)) && symbolTable.all (fun x => c != x.1) && c.utf8Size == 1))
    (by decide +kernel) hc
  simp only [h, Bool.not_true, Bool.false_or, Bool.and_eq_true, Bool.not_eq_true', bne_iff_ne, ne_eq, List.all_eq_true,
    beq_iff_eq] at key
  obtain ⟨⟨⟨⟨⟨⟨⟨⟨a1, a2⟩, a3⟩, a4⟩, a5⟩, a6⟩, a7⟩, a8⟩, a9⟩ := key
  exact ⟨hc, a1, a2, a3, a4, a5, a6, a7, fun x v hx => a8 (x, v) hx, a9⟩

theorem lexWord_complete {T : CharTable} {i : Nat} {c : Char} {w rest : Str} (hw : ∀ d ∈ w, T.WordChar d)
    (hr : ∀ d, rest.head? = some d → ¬ T.WordChar d) :
    (w ++ rest).takeWhile (fun d => T.isAlphanumeric d || d == '_') = w ∧
      (w ++ rest).dropWhile (fun d => T.isAlphanumeric d || d == '_') = rest := by
  have h1 : ∀ d ∈ w, (T.isAlphanumeric d || d == '_') = true := fun d hd => (wordChar_bool T d).mpr (hw d hd)
  have h2 : ∀ d, rest.head? = some d → (T.isAlphanumeric d || d == '_') = false := by
    intro d hd
    cases h : (T.isAlphanumeric d || d == '_') with
    | false => rfl
    | true => exact absurd ((wordChar_bool T d).mp h) (hr d hd)
  exact ⟨takeWhile_exact _ h1 h2, dropWhile_exact _ h1 h2⟩

/-- What the tokenizer does on the text of a token. -/
theorem lexStep_complete {T : CharTable} (hT : T.Ascii) {text rest : Str} {v : TokVariant} (hsp : Spells T text v)
    (hends : Ends T v text rest) (i : Nat) : ∃ c w gap rest', text = c :: w ∧ rest = gap ++ rest' ∧
      (∀ d ∈ gap, T.isWhitespace d = true) ∧
      lexStep T i c (w ++ rest) =
        ⟨some ⟨⟨i, i + utf8Len text⟩, v⟩, [], i + utf8Len text + utf8Len gap, rest'⟩ := by
  cases hsp with
  | @symbol c v h =>
    refine ⟨c, [], [], rest, rfl, rfl, by simp, ?_⟩
    simp only [lexStep, (symbol?_iff c v).mpr h, utf8Len, (symbol_ascii h).2.2.2.2.2.2.2.2.2]
    simp
  | @keyword k v h =>
    obtain ⟨c, w, hk, ha, hc, hw⟩ := keyword_chars h
    have hal : T.isAlphabetic c = true := by rw [hT.isAlphabetic c hc, ha]
    have hns := not_symbol_of_alphabetic hT hal
    have hww : ∀ d ∈ w, T.WordChar d := fun d hd =>
      .inl (by rw [hT.isAlphanumeric d (hw d hd).2, (hw d hd).1])
    rw [hk] at hends ⊢
    have hr := ends_word_inv hns (.inr ⟨k, h⟩) hends
    obtain ⟨h1, h2⟩ := lexWord_complete (i := i) (c := c) hww hr
    refine ⟨c, w, [], rest, rfl, rfl, by simp, ?_⟩
    unfold lexStep
    rw [symbol?_none hns]
    dsimp only
    rw [if_pos (by rw [hal]; rfl)]
    unfold lexWord
    dsimp only
    rw [h1, h2, (keyword?_iff (c :: w) v).mpr ⟨k, h, hk.symm⟩]
    simp [utf8Len]
  | @identifier c w hal hw hnk =>
    have hns := not_symbol_of_alphabetic hT hal
    have hr := ends_word_inv hns (.inl ⟨_, rfl⟩) hends
    obtain ⟨h1, h2⟩ := lexWord_complete (i := i) (c := c) hw hr
    refine ⟨c, w, [], rest, rfl, rfl, by simp, ?_⟩
    unfold lexStep
    rw [symbol?_none hns]
    dsimp only
    rw [if_pos (by rw [hal]; rfl)]
    unfold lexWord
    dsimp only
    rw [h1, h2, (keyword?_none (c :: w)).mpr hnk]
    have hd : c ≠ '$' := by
      intro h; subst h
      rw [hT.isAlphabetic '$' (by decide)] at hal
      exact absurd hal (by decide)
    have hu : c ≠ '_' := by
      intro h; subst h
      rw [hT.isAlphabetic '_' (by decide)] at hal
      exact absurd hal (by decide)
    simp [utf8Len, hd, hu]
  | @raw c w hal hne hw =>
    have hns : ∀ x v, (x, v) ∈ symbolTable → '$' ≠ x := fun x v hx he =>
      (symbol_ascii hx).2.2.2.2.1 he.symm
    have hww : ∀ d ∈ c :: w, T.WordChar d := by
      intro d hd
      rcases List.mem_cons.mp hd with h | h
      · exact .inl (h ▸ hal)
      · exact hw d h
    have hr := ends_word_inv hns (.inl ⟨_, rfl⟩) hends
    obtain ⟨h1, h2⟩ := lexWord_complete (i := i) (c := '$') hww hr
    refine ⟨'$', c :: w, [], rest, rfl, rfl, by simp, ?_⟩
    unfold lexStep
    rw [symbol?_none hns]
    dsimp only
    rw [if_pos (by simp)]
    unfold lexWord
    dsimp only
    have hnk : ¬ IsKeyword ('$' :: c :: w) := by
      rintro ⟨k, v, hk, he⟩
      obtain ⟨c', w', hk', ha, -⟩ := keyword_chars hk
      rw [hk'] at he
      rw [← (List.cons.inj he).1] at ha
      exact absurd ha (by decide)
    rw [h1, h2, (keyword?_none _).mpr hnk]
    simp [utf8Len, hne]
  | integer hne hd hlt =>
    cases text with
    | nil => exact absurd rfl hne
    | cons c w =>
      obtain ⟨hc, a1, a2, a3, a4, a5, a6, a7, a8, a9⟩ := isDigit_ascii (hd c (by simp))
      have h1 : (w ++ rest).takeWhile Char.isDigit = w := takeWhile_exact _ (fun d h => hd d (by simp [h])) hends
      have h2 : (w ++ rest).dropWhile Char.isDigit = rest := dropWhile_exact _ (fun d h => hd d (by simp [h])) hends
      refine ⟨c, w, [], rest, rfl, rfl, by simp, ?_⟩
      unfold lexStep
      rw [symbol?_none a8]
      dsimp only
      rw [if_neg (by rw [hT.isAlphabetic c hc, a1]; simp [a3, a4]), if_pos (hd c (by simp))]
      unfold lexInteger
      dsimp only
      rw [h1, h2, decimal_eq, if_pos hlt]
      simp [utf8Len]
  | @path p hp =>
    have hns : ∀ x v, (x, v) ∈ symbolTable → '\'' ≠ x := fun x v hx he =>
      (symbol_ascii hx).2.2.2.2.2.1 he.symm
    have hq : ∀ d ∈ p, (d != '\'') = true := by
      intro d hd
      simp only [bne_iff_ne, ne_eq]
      intro h; subst h; exact hp hd
    have e : p ++ ['\''] ++ rest = p ++ '\'' :: rest := by simp
    have h1 : (p ++ '\'' :: rest).takeWhile (fun d => d != '\'') = p := takeWhile_exact _ hq (by simp)
    have h2 : (p ++ '\'' :: rest).dropWhile (fun d => d != '\'') = '\'' :: rest := dropWhile_exact _ hq (by simp)
    have q : ('\'' : Char).utf8Size = 1 := rfl
    refine ⟨'\'', p ++ ['\''], [], rest, rfl, rfl, by simp, ?_⟩
    unfold lexStep
    rw [symbol?_none hns]
    dsimp only
    rw [if_neg (by rw [hT.isAlphabetic '\'' (by decide)]; decide), if_neg (by decide), if_pos rfl]
    unfold lexPath
    dsimp only
    rw [e, h1, h2]
    simp only [List.cons_append, utf8Len_cons, utf8Len_append, q, utf8Len]
    simp
    omega
  | @comment _ ls ps ht hp =>
    obtain ⟨w, rfl⟩ : ∃ w, text = '#' :: w := by cases ht <;> exact ⟨_, rfl⟩
    have hns : ∀ x v, (x, v) ∈ symbolTable → '#' ≠ x := fun x v hx he =>
      (symbol_ascii hx).2.2.2.2.2.2.1 he.symm
    have hsz : ('#' : Char).utf8Size = 1 := rfl
    obtain ⟨gap, rest', hrest, hgap, hscan⟩ := scanComment_complete hT ht rest hends w rfl
      ((w ++ rest).length + 1) (i + 1) (by simp)
    refine ⟨'#', w, gap, rest', rfl, hrest, hgap, ?_⟩
    unfold lexStep
    rw [symbol?_none hns]
    dsimp only
    rw [if_neg (by rw [hT.isAlphabetic '#' (by decide)]; decide), if_neg (by decide), if_neg (by decide), if_pos rfl]
    unfold lexComment
    dsimp only
    rw [hscan]
    simp only [hp.eq, utf8Len_cons, hsz]
    simp
    omega

theorem lexStep_blank {T : CharTable} (hT : T.Ascii) (hS : T.SpaceApart) {c : Char} (h : T.isWhitespace c = true)
    (i : Nat) (s : Str) : lexStep T i c s = ⟨none, [], i + c.utf8Size, s⟩ := by
  have hns : ∀ x v, (x, v) ∈ symbolTable → c ≠ x := by
    intro x v hx he
    subst he
    have := symbol_ascii hx
    rw [hT.isWhitespace c this.1, this.2.2.2.2.2.2.2.2.1] at h
    cases h
  have ne : ∀ x : Char, x.toNat < 128 → (x == ' ' || (9 ≤ x.toNat && x.toNat ≤ 13)) = false → c ≠ x := by
    intro x hx hb he
    subst he
    rw [hT.isWhitespace c hx, hb] at h
    cases h
  have hd : c.isDigit = false := by
    cases hd : c.isDigit with
    | false => rfl
    | true =>
      have := isDigit_ascii hd
      rw [hT.isWhitespace c this.1, this.2.2.2.2.2.2.2.1] at h
      cases h
  unfold lexStep
  rw [symbol?_none hns]
  have n1 := ne '_' (by decide) (by decide)
  have n2 := ne '$' (by decide) (by decide)
  have n3 := ne '\'' (by decide) (by decide)
  have n4 := ne '#' (by decide) (by decide)
  simp [(hS c h).1, n1, n2, n3, n4, hd, h]

theorem lexFrom_gap {T : CharTable} (hT : T.Ascii) (hS : T.SpaceApart) {g : Str} (hg : ∀ c ∈ g, T.isWhitespace c = true) :
    ∀ (i : Nat) (s : Str), lexFrom T i (g ++ s) = lexFrom T (i + utf8Len g) s := by
  induction g with
  | nil => intro i s; simp [utf8Len]
  | cons c g ih =>
    intro i s
    rw [List.cons_append, lexFrom_cons hT, lexStep_blank hT hS (hg c (by simp))]
    simp only [Option.toList, List.nil_append, utf8Len_cons]
    rw [ih (fun x hx => hg x (by simp [hx])), Nat.add_assoc]

theorem lexFrom_complete {T : CharTable} (hT : T.Ascii) (hS : T.SpaceApart) {i : Nat} {s : Str} {ts : List Token}
    (h : Lexes T i s ts) : lexFrom T i s = (ts, []) := by
  induction h with
  | @nil i s h =>
    have := lexFrom_gap hT hS h i []
    rw [List.append_nil, lexFrom_nil] at this
    exact this
  | @cons i gap text rest v ts hgap hne hsp hends h ih =>
    rw [List.append_assoc, lexFrom_gap hT hS hgap]
    obtain ⟨c, w, g, rest', rfl, rfl, hg, hstep⟩ := lexStep_complete hT hsp hends (i + utf8Len gap)
    rw [List.cons_append, lexFrom_cons hT, hstep]
    rw [lexFrom_gap hT hS hg] at ih
    dsimp only
    rw [ih]
    simp

/-- The tokenizer computes exactly the division of the source into tokens. -/
theorem tokenize_iff {T : CharTable} (hT : T.Ascii) (hS : T.SpaceApart) (s : Str) (ts : List Token) :
    tokenize T s = .ok ts ↔ Lexes T 0 s ts := by
  have e : lexLoop T s.length 0 s = lexFrom T 0 s := rfl
  unfold tokenize
  dsimp only
  rw [e]
  constructor
  · intro h
    split at h
    · rename_i he
      cases h
      exact lexFrom_sound hT s.length 0 s (Nat.le_refl _) (by simpa using he)
    · cases h
  · intro h
    rw [lexFrom_complete hT hS h]
    rfl

end Typical
