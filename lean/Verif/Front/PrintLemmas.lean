import Verif.Front.LexComplete

/-!
# Printed tokens spell themselves
-/

namespace Typical

theorem digitsValue_append (a : Str) (c : Char) : digitsValue (a ++ [c]) = 10 * digitsValue a + (c.toNat - 48) := by
  induction a with
  | nil =>
    have : '0'.toNat = 48 := rfl
    simp [digitsValue, this]
  | cons x a ih =>
    have e : (x :: a ++ [c]) = x :: (a ++ [c]) := rfl
    rw [e, digitsValue, digitsValue, ih, List.length_append, List.length_singleton, Nat.pow_succ]
    have : (x.toNat - '0'.toNat) * (10 ^ a.length * 10) = 10 * ((x.toNat - '0'.toNat) * 10 ^ a.length) := by
      rw [← Nat.mul_assoc, Nat.mul_comm]
    omega

theorem digit_char (k : Nat) (h : k < 10) : (Char.ofNat (48 + k)).isDigit = true ∧ (Char.ofNat (48 + k)).toNat = 48 + k := by
  match k, h with
  | 0, _ => decide
  | 1, _ => decide
  | 2, _ => decide
  | 3, _ => decide
  | 4, _ => decide
  | 5, _ => decide
  | 6, _ => decide
  | 7, _ => decide
  | 8, _ => decide
  | 9, _ => decide
  | k + 10, h => omega

theorem showNatAux_spec : ∀ (fuel n : Nat), n < fuel → showNatAux fuel n ≠ [] ∧
    (∀ d ∈ showNatAux fuel n, d.isDigit = true) ∧ digitsValue (showNatAux fuel n) = n
  | 0, _, h => by omega
  | fuel + 1, n, h => by
    obtain ⟨d1, d2⟩ := digit_char (n % 10) (Nat.mod_lt _ (by decide))
    rw [showNatAux]
    by_cases hn : n < 10
    · rw [if_pos hn]
      refine ⟨by simp, by simpa using d1, ?_⟩
      rw [digitsValue_append, d2]
      simp [digitsValue]
      omega
    · rw [if_neg hn]
      obtain ⟨i1, i2, i3⟩ := showNatAux_spec fuel (n / 10) (by omega)
      refine ⟨by simp, ?_, ?_⟩
      · intro d hd
        rcases List.mem_append.mp hd with hd | hd
        · exact i2 d hd
        · simp at hd; subst hd; exact d1
      · rw [digitsValue_append, d2, i3]
        omega

theorem showNat_spec (n : Nat) : showNat n ≠ [] ∧ (∀ d ∈ showNat n, d.isDigit = true) ∧ digitsValue (showNat n) = n :=
  showNatAux_spec (n + 1) n (by omega)

theorem spells_integer {T : CharTable} {n : Nat} (h : n < 2 ^ 64) : Spells T (showNat n) (.integer n) := by
  obtain ⟨h1, h2, h3⟩ := showNat_spec n
  have := Spells.integer (T := T) h1 h2 (by rw [h3]; exact h)
  rw [h3] at this
  exact this

theorem spells_plain {T : CharTable} {w : Str} (h : PlainName T w) : Spells T w (.identifier (Identifier.ofStr T w)) := by
  obtain ⟨⟨c, v, rfl, h1, h2⟩, h3⟩ := h
  exact .identifier h1 h2 h3

theorem spells_show {T : CharTable} {v : TokVariant} (h : Writable T v) : Spells T v.show v := by
  cases v with
  | comment ps => exact absurd h id
  | identifier i =>
    obtain ⟨h1, h2⟩ := h
    have := spells_plain h1
    rw [← h2] at this
    exact this
  | integer n => exact spells_integer h
  | path p => exact .path h
  | colon => exact .symbol (by simp [symbolTable])
  | dot => exact .symbol (by simp [symbolTable])
  | equals => exact .symbol (by simp [symbolTable])
  | leftCurly => exact .symbol (by simp [symbolTable])
  | leftSquare => exact .symbol (by simp [symbolTable])
  | rightCurly => exact .symbol (by simp [symbolTable])
  | rightSquare => exact .symbol (by simp [symbolTable])
  | as => exact .keyword (k := "as") (by simp [keywordTable])
  | asymmetric => exact .keyword (k := "asymmetric") (by simp [keywordTable])
  | bool => exact .keyword (k := "Bool") (by simp [keywordTable])
  | bytes => exact .keyword (k := "Bytes") (by simp [keywordTable])
  | choice => exact .keyword (k := "choice") (by simp [keywordTable])
  | deleted => exact .keyword (k := "deleted") (by simp [keywordTable])
  | f64 => exact .keyword (k := "F64") (by simp [keywordTable])
  | «import» => exact .keyword (k := "import") (by simp [keywordTable])
  | optional => exact .keyword (k := "optional") (by simp [keywordTable])
  | s64 => exact .keyword (k := "S64") (by simp [keywordTable])
  | string => exact .keyword (k := "String") (by simp [keywordTable])
  | struct => exact .keyword (k := "struct") (by simp [keywordTable])
  | u64 => exact .keyword (k := "U64") (by simp [keywordTable])
  | unit => exact .keyword (k := "Unit") (by simp [keywordTable])

/-- A space (or any white space, or nothing) can follow a token which is not a comment. -/
theorem ends_space {T : CharTable} (hT : T.Ascii) (hS : T.SpaceApart) {v : TokVariant} {text rest : Str}
    (hv : ∀ ps, v ≠ .comment ps) (hr : ∀ c, rest.head? = some c → T.isWhitespace c = true) : Ends T v text rest := by
  have hw : ∀ c, rest.head? = some c → ¬ T.WordChar c := by
    intro c hc hw
    rcases hw with hw | hw
    · rw [(hS c (hr c hc)).2] at hw; cases hw
    · subst hw
      have := hr _ hc
      rw [hT.isWhitespace '_' (by decide)] at this
      exact absurd this (by decide)
  have hd : ∀ c, rest.head? = some c → c.isDigit = false := by
    intro c hc
    cases hd : c.isDigit with
    | false => rfl
    | true =>
      have h1 := isDigit_ascii hd
      have := hr _ hc
      rw [hT.isWhitespace c h1.1, h1.2.2.2.2.2.2.2.1] at this
      cases this
  cases v with
  | comment ps => exact absurd rfl (hv ps)
  | integer n => exact hd
  | path p => trivial
  | _ => exact .inr hw

theorem spells_ne_nil {T : CharTable} {text : Str} {v : TokVariant} (h : Spells T text v) : text ≠ [] := by
  cases h with
  | symbol => simp
  | keyword h =>
    obtain ⟨c, w, hk, -⟩ := keyword_chars h
    rw [hk]; simp
  | identifier => simp
  | raw => simp
  | integer h => exact h
  | path => simp
  | comment h => cases h <;> simp

/-- Texts of tokens separated by white space. -/
theorem lexes_pieces {T : CharTable} (hT : T.Ascii) (hS : T.SpaceApart) : ∀ (pieces : List (Str × Str × TokVariant)) (i : Nat),
    (∀ p ∈ pieces, p.1 ≠ [] ∧ (∀ c ∈ p.1, T.isWhitespace c = true) ∧ Spells T p.2.1 p.2.2 ∧ ∀ ps, p.2.2 ≠ .comment ps) →
    ∃ ts, Lexes T i (pieces.flatMap (fun p => p.1 ++ p.2.1)) ts ∧ ts.map Token.variant = pieces.map (fun p => p.2.2)
  | [], i, _ => ⟨[], .nil (by simp), rfl⟩
  | (gap, text, v) :: pieces, i, h => by
    obtain ⟨hne, hgap, hsp, hnc⟩ := h (gap, text, v) (by simp)
    obtain ⟨ts, hts, hmap⟩ := lexes_pieces hT hS pieces (i + utf8Len gap + utf8Len text) (fun p hp => h p (by simp [hp]))
    have hends : Ends T v text (pieces.flatMap (fun p => p.1 ++ p.2.1)) := by
      refine ends_space hT hS hnc ?_
      intro c hc
      cases pieces with
      | nil => simp at hc
      | cons q pieces =>
        obtain ⟨h1, h2, -⟩ := h q (by simp)
        obtain ⟨g, t, w⟩ := q
        cases g with
        | nil => exact absurd rfl h1
        | cons x g =>
          simp at hc
          subst hc
          exact h2 _ (by simp)
    have hc := Lexes.cons hgap (spells_ne_nil hsp) hsp hends hts
    exact ⟨_, hc, by simp [hmap]⟩

end Typical
