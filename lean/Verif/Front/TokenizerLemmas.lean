import Verif.Spec.Tokens
import Verif.Front.IdentifierLemmas

/-!
# Lemmas about the tokenizer
-/

namespace Typical

/-! ## Lists of characters -/

theorem utf8Len_append (a b : Str) : utf8Len (a ++ b) = utf8Len a + utf8Len b := by
  induction a with
  | nil => simp [utf8Len]
  | cons c a ih => simp [utf8Len, ih]; omega

theorem utf8Len_cons (c : Char) (s : Str) : utf8Len (c :: s) = c.utf8Size + utf8Len s := rfl

theorem utf8Len_pos {s : Str} (h : s ≠ []) : 0 < utf8Len s := by
  cases s with
  | nil => exact absurd rfl h
  | cons c s =>
    have := c.utf8Size_pos
    simp only [utf8Len]; omega

theorem takeWhile_all {α} (p : α → Bool) (l : List α) : ∀ x ∈ l.takeWhile p, p x = true := by
  induction l with
  | nil => intro x h; simp at h
  | cons a l ih =>
    intro x h
    by_cases ha : p a = true
    · rw [List.takeWhile_cons_of_pos ha] at h
      rcases List.mem_cons.mp h with h | h
      · exact h ▸ ha
      · exact ih x h
    · rw [List.takeWhile_cons_of_neg ha] at h; simp at h

theorem dropWhile_head {α} (p : α → Bool) (l : List α) : ∀ x, (l.dropWhile p).head? = some x → p x = false := by
  induction l with
  | nil => intro x h; simp at h
  | cons a l ih =>
    intro x h
    by_cases ha : p a = true
    · rw [List.dropWhile_cons_of_pos ha] at h
      exact ih x h
    · rw [List.dropWhile_cons_of_neg ha] at h
      simp at h
      subst h
      simpa using ha

theorem takeWhile_exact {α} (p : α → Bool) {a b : List α} (ha : ∀ x ∈ a, p x = true)
    (hb : ∀ x, b.head? = some x → p x = false) : (a ++ b).takeWhile p = a := by
  induction a with
  | nil =>
    cases b with
    | nil => rfl
    | cons x b =>
      have := hb x rfl
      simp [List.takeWhile, this]
  | cons x a ih =>
    rw [List.cons_append, List.takeWhile_cons_of_pos (ha x (by simp)), ih (fun y hy => ha y (by simp [hy]))]

theorem dropWhile_exact {α} (p : α → Bool) {a b : List α} (ha : ∀ x ∈ a, p x = true)
    (hb : ∀ x, b.head? = some x → p x = false) : (a ++ b).dropWhile p = b := by
  induction a with
  | nil =>
    cases b with
    | nil => rfl
    | cons x b =>
      have := hb x rfl
      simp [List.dropWhile, this]
  | cons x a ih =>
    rw [List.cons_append, List.dropWhile_cons_of_pos (ha x (by simp)), ih (fun y hy => ha y (by simp [hy]))]

/-! ## Trimming -/

theorem trim_spec (T : CharTable) (s : Str) : Trimmed T s (trim T s) := by
  unfold trim
  let a := s.takeWhile T.isWhitespace
  have h1 : s = a ++ s.dropWhile T.isWhitespace := (List.takeWhile_append_dropWhile).symm
  generalize hm : s.dropWhile T.isWhitespace = m at h1
  let b := m.reverse.takeWhile T.isWhitespace
  have h2 : m.reverse = b ++ m.reverse.dropWhile T.isWhitespace := (List.takeWhile_append_dropWhile).symm
  generalize hu : m.reverse.dropWhile T.isWhitespace = u at h2
  have h3 : m = u.reverse ++ b.reverse := by
    have := congrArg List.reverse h2
    simpa using this
  refine ⟨⟨a, b.reverse, ?_, takeWhile_all _ _, ?_⟩, ?_, ?_⟩
  · rw [List.append_assoc, ← h3]; exact h1
  · intro c hc
    exact takeWhile_all T.isWhitespace m.reverse c (by simpa using hc)
  · intro c hc
    refine dropWhile_head T.isWhitespace s c ?_
    rw [hm, h3]
    cases hr : u.reverse with
    | nil => rw [hr] at hc; simp at hc
    | cons x r => rw [hr] at hc; simpa using hc
  · intro c hc
    refine dropWhile_head T.isWhitespace m.reverse c ?_
    rw [hu]
    simpa using hc

theorem Trimmed.eq {T : CharTable} {s u : Str} (h : Trimmed T s u) : trim T s = u := by
  obtain ⟨⟨a, b, rfl, ha, hb⟩, h1, h2⟩ := h
  unfold trim
  by_cases hu : u = []
  · subst hu
    have : (a ++ [] ++ b).dropWhile T.isWhitespace = [] := by
      have := dropWhile_exact T.isWhitespace (a := a ++ b) (b := [])
        (by intro x hx; rcases List.mem_append.mp hx with hx | hx; exact ha x hx; exact hb x hx) (by simp)
      simpa using this
    rw [this]; rfl
  · have e1 : (a ++ u ++ b).dropWhile T.isWhitespace = u ++ b := by
      rw [List.append_assoc]
      refine dropWhile_exact _ ha ?_
      intro x hx
      cases u with
      | nil => exact absurd rfl hu
      | cons y u => exact h1 x hx
    rw [e1, List.reverse_append]
    rw [dropWhile_exact _ (by simpa using hb)]
    · simp
    · intro x hx
      exact h2 x (by simpa using hx)

theorem trim_unique {T : CharTable} {s u : Str} : Trimmed T s u ↔ trim T s = u :=
  ⟨Trimmed.eq, fun h => h ▸ trim_spec T s⟩

/-! ## Paragraphs -/

theorem paragraphs_go {ls ps : List Str} (h : Paragraphs ls ps) : ∀ (done : List Str) (cur : Str),
    (cur ≠ [] → ∀ l, ls.head? = some l → l = []) →
    (let st := ls.foldl paragraphStep (done, cur)
     if !st.2.isEmpty then st.1 ++ [st.2] else st.1) = done ++ (if cur = [] then [] else [cur]) ++ ps := by
  induction h with
  | nil =>
    intro done cur _
    cases cur <;> simp
  | @blank ls ps h ih =>
    intro done cur hc
    rw [List.foldl_cons]
    cases cur with
    | nil =>
      have : paragraphStep (done, []) [] = (done, []) := rfl
      rw [this]
      simpa using ih done [] (fun h => absurd rfl h)
    | cons x cur =>
      have : paragraphStep (done, x :: cur) [] = (done ++ [x :: cur], []) := rfl
      rw [this]
      simpa using ih (done ++ [x :: cur]) [] (fun h => absurd rfl h)
  | @run run ls ps hne hall hls h ih =>
    intro done cur hc
    cases run with
    | nil => exact absurd rfl hne
    | cons l run =>
      have hl : l ≠ [] := hall l (by simp)
      have hcur : cur = [] := by
        apply Classical.byContradiction
        intro hcur
        exact hl (hc hcur l rfl)
      subst hcur
      have key : ∀ (run : List Str) (l : Str), l ≠ [] → (∀ l' ∈ run, l' ≠ []) →
          run.foldl paragraphStep (done, l) = (done, joinWith [' '] (l :: run)) := by
        intro run
        induction run with
        | nil => intro l _ _; rfl
        | cons l2 run ih2 =>
          intro l hl hr
          have h2 : l2 ≠ [] := hr l2 (by simp)
          rw [List.foldl_cons]
          have e : paragraphStep (done, l) l2 = (done, l ++ [' '] ++ l2) := by
            cases l2 with
            | nil => exact absurd rfl h2
            | cons y l2 =>
              cases l with
              | nil => exact absurd rfl hl
              | cons x l => simp [paragraphStep]
          rw [e, ih2 (l ++ [' '] ++ l2) (by simp) (fun l' h' => hr l' (by simp [h']))]
          cases run with
          | nil => simp [joinWith]
          | cons l3 run => simp [joinWith]
      rw [List.foldl_append, List.foldl_cons]
      have e : paragraphStep (done, []) l = (done, l) := by
        cases l with
        | nil => exact absurd rfl hl
        | cons y l => simp [paragraphStep]
      rw [e, key run l hl (fun l' h' => hall l' (by simp [h']))]
      have hj : joinWith [' '] (l :: run) ≠ [] := by
        cases run with
        | nil => exact hl
        | cons l2 run => simp [joinWith]
      have := ih done (joinWith [' '] (l :: run)) (fun _ => hls)
      rw [this]
      simp [hj]

theorem Paragraphs.eq {ls ps : List Str} (h : Paragraphs ls ps) : paragraphs ls = ps := by
  have := paragraphs_go h [] [] (fun h => absurd rfl h)
  simpa [paragraphs] using this

theorem paragraphs_exists : ∀ (n : Nat) (ls : List Str), ls.length ≤ n → ∃ ps, Paragraphs ls ps
  | _, [], _ => ⟨[], .nil⟩
  | 0, l :: ls, h => by simp at h
  | n + 1, [] :: ls, h => by
    obtain ⟨ps, hp⟩ := paragraphs_exists n ls (by simpa using h)
    exact ⟨ps, .blank hp⟩
  | n + 1, (x :: l) :: ls, h => by
    let p : Str → Bool := fun l => !l.isEmpty
    have e : ls = ls.takeWhile p ++ ls.dropWhile p := (List.takeWhile_append_dropWhile).symm
    obtain ⟨ps, hp⟩ := paragraphs_exists n (ls.dropWhile p) (by
      have := (List.dropWhile_sublist p (l := ls)).length_le
      simp at h; omega)
    refine ⟨joinWith [' '] ((x :: l) :: ls.takeWhile p) :: ps, ?_⟩
    have := Paragraphs.run (run := (x :: l) :: ls.takeWhile p) (ls := ls.dropWhile p) (by simp) ?_ ?_ hp
    · rw [List.cons_append, ← e] at this
      exact this
    · intro l' h'
      rcases List.mem_cons.mp h' with h' | h'
      · subst h'; simp
      · have := takeWhile_all p ls l' h'
        intro hnil
        subst hnil
        simp [p] at this
    · intro l' h'
      have := dropWhile_head p ls l' h'
      cases l' with
      | nil => rfl
      | cons y l' => simp [p] at this

theorem paragraphs_spec (ls : List Str) : Paragraphs ls (paragraphs ls) := by
  obtain ⟨ps, hp⟩ := paragraphs_exists ls.length ls (Nat.le_refl _)
  rw [hp.eq]; exact hp

/-! ## Numerals -/

theorem decimal_go (s : Str) : ∀ n, s.foldl (fun n c => 10 * n + (c.toNat - 48)) n = n * 10 ^ s.length + digitsValue s := by
  induction s with
  | nil => intro n; simp [digitsValue]
  | cons c s ih =>
    intro n
    rw [List.foldl_cons, ih, digitsValue, List.length_cons, Nat.pow_succ]
    have : '0'.toNat = 48 := rfl
    rw [this, Nat.add_mul]
    have : 10 * n * 10 ^ s.length = n * (10 ^ s.length * 10) := by
      rw [Nat.mul_comm 10 n, Nat.mul_assoc, Nat.mul_comm 10]
    omega

theorem decimal_eq (s : Str) : decimal s = digitsValue s := by
  have := decimal_go s 0
  simpa [decimal] using this

/-! ## Tables -/

theorem symbol?_iff (c : Char) (v : TokVariant) : symbol? c = some v ↔ (c, v) ∈ symbolTable := by
  unfold symbol? symbolTable
  constructor
  · intro h
    repeat' split at h
    all_goals first | (cases h; subst_vars; simp) | cases h
  · intro h
    simp only [List.mem_cons, Prod.mk.injEq, List.not_mem_nil, or_false] at h
    rcases h with ⟨rfl, rfl⟩ | ⟨rfl, rfl⟩ | ⟨rfl, rfl⟩ | ⟨rfl, rfl⟩ | ⟨rfl, rfl⟩ | ⟨rfl, rfl⟩ | ⟨rfl, rfl⟩ <;> rfl

theorem keyword?_iff (s : Str) (v : TokVariant) : keyword? s = some v ↔ ∃ k, (k, v) ∈ keywordTable ∧ s = k.toList := by
  unfold keyword? keywordTable
  constructor
  · intro h
    by_cases h1 : s = "as".toList
    · rw [if_pos h1] at h; cases h; exact ⟨"as", by simp, h1⟩
    rw [if_neg h1] at h; clear h1
    by_cases h1 : s = "asymmetric".toList
    · rw [if_pos h1] at h; cases h; exact ⟨"asymmetric", by simp, h1⟩
    rw [if_neg h1] at h; clear h1
    by_cases h1 : s = "Bool".toList
    · rw [if_pos h1] at h; cases h; exact ⟨"Bool", by simp, h1⟩
    rw [if_neg h1] at h; clear h1
    by_cases h1 : s = "Bytes".toList
    · rw [if_pos h1] at h; cases h; exact ⟨"Bytes", by simp, h1⟩
    rw [if_neg h1] at h; clear h1
    by_cases h1 : s = "choice".toList
    · rw [if_pos h1] at h; cases h; exact ⟨"choice", by simp, h1⟩
    rw [if_neg h1] at h; clear h1
    by_cases h1 : s = "deleted".toList
    · rw [if_pos h1] at h; cases h; exact ⟨"deleted", by simp, h1⟩
    rw [if_neg h1] at h; clear h1
    by_cases h1 : s = "F64".toList
    · rw [if_pos h1] at h; cases h; exact ⟨"F64", by simp, h1⟩
    rw [if_neg h1] at h; clear h1
    by_cases h1 : s = "import".toList
    · rw [if_pos h1] at h; cases h; exact ⟨"import", by simp, h1⟩
    rw [if_neg h1] at h; clear h1
    by_cases h1 : s = "optional".toList
    · rw [if_pos h1] at h; cases h; exact ⟨"optional", by simp, h1⟩
    rw [if_neg h1] at h; clear h1
    by_cases h1 : s = "S64".toList
    · rw [if_pos h1] at h; cases h; exact ⟨"S64", by simp, h1⟩
    rw [if_neg h1] at h; clear h1
    by_cases h1 : s = "String".toList
    · rw [if_pos h1] at h; cases h; exact ⟨"String", by simp, h1⟩
    rw [if_neg h1] at h; clear h1
    by_cases h1 : s = "struct".toList
    · rw [if_pos h1] at h; cases h; exact ⟨"struct", by simp, h1⟩
    rw [if_neg h1] at h; clear h1
    by_cases h1 : s = "U64".toList
    · rw [if_pos h1] at h; cases h; exact ⟨"U64", by simp, h1⟩
    rw [if_neg h1] at h; clear h1
    by_cases h1 : s = "Unit".toList
    · rw [if_pos h1] at h; cases h; exact ⟨"Unit", by simp, h1⟩
    rw [if_neg h1] at h; clear h1
    cases h
  · rintro ⟨k, h, rfl⟩
    simp only [List.mem_cons, Prod.mk.injEq, List.not_mem_nil, or_false] at h
    rcases h with ⟨rfl, rfl⟩ | ⟨rfl, rfl⟩ | ⟨rfl, rfl⟩ | ⟨rfl, rfl⟩ | ⟨rfl, rfl⟩ | ⟨rfl, rfl⟩ | ⟨rfl, rfl⟩ |
      ⟨rfl, rfl⟩ | ⟨rfl, rfl⟩ | ⟨rfl, rfl⟩ | ⟨rfl, rfl⟩ | ⟨rfl, rfl⟩ | ⟨rfl, rfl⟩ | ⟨rfl, rfl⟩ <;> rfl

theorem keyword?_none (s : Str) : keyword? s = none ↔ ¬ IsKeyword s := by
  constructor
  · intro h
    rintro ⟨k, v, hm, rfl⟩
    have := (keyword?_iff k.toList v).mpr ⟨k, hm, rfl⟩
    rw [h] at this; cases this
  · intro h
    cases hk : keyword? s with
    | none => rfl
    | some v =>
      obtain ⟨k, hm, rfl⟩ := (keyword?_iff s v).mp hk
      exact absurd ⟨k, v, hm, rfl⟩ h

end Typical
