import Verif.Spec.Listing
import Verif.Front.LexLemmas
import Verif.Front.IdentifierLemmas

/-!
# Lemmas about listings
-/

namespace Typical

theorem splitAtByte_append (a b : Str) : splitAtByte (a ++ b) (utf8Len a) = some (a, b) := by
  induction a with
  | nil => cases b <;> rfl
  | cons c a ih =>
    have hp := c.utf8Size_pos
    rw [utf8Len_cons]
    obtain ⟨k, hk⟩ : ∃ k, c.utf8Size + utf8Len a = k + 1 := ⟨c.utf8Size + utf8Len a - 1, by omega⟩
    rw [List.cons_append, hk, splitAtByte, if_pos (by omega)]
    have : k + 1 - c.utf8Size = utf8Len a := by omega
    rw [this, ih]
    rfl

theorem slice_append (a b c : Str) : slice (a ++ b ++ c) (utf8Len a) (utf8Len (a ++ b)) = some b := by
  unfold slice
  rw [if_pos (by rw [utf8Len_append]; omega), splitAtByte_append]
  simp [splitAtByte_append]

theorem slice_zero (a b : Str) : slice (a ++ b) 0 (utf8Len a) = some a := by
  have := slice_append [] a b
  simpa [utf8Len] using this

theorem slice_end (a b : Str) : slice (a ++ b) (utf8Len a) (utf8Len (a ++ b)) = some b := by
  have := slice_append a b []
  simpa using this

/-- Two prefixes of a text: one is a prefix of the other, and lengths in bytes and in characters agree about which. -/
theorem prefix_cases {a b c d : Str} (h : a ++ b = c ++ d) :
    (∃ e, c = a ++ e ∧ b = e ++ d) ∨ (∃ e, e ≠ [] ∧ a = c ++ e ∧ d = e ++ b) := by
  rcases List.append_eq_append_iff.mp h with ⟨e, h1, h2⟩ | ⟨e, h1, h2⟩
  · exact .inl ⟨e, h1, h2⟩
  · by_cases he : e = []
    · subst he
      exact .inl ⟨[], by simpa using h1.symm, by simpa using h2.symm⟩
    · exact .inr ⟨e, he, h1, h2⟩

theorem prefix_le {a b c d : Str} (h : a ++ b = c ++ d) : a.length ≤ c.length ↔ utf8Len a ≤ utf8Len c := by
  rcases prefix_cases h with ⟨e, h1, -⟩ | ⟨e, he, h1, -⟩
  · subst h1; simp [utf8Len_append]
  · subst h1
    have := utf8Len_pos he
    have := List.length_pos_iff.mpr he
    simp only [utf8Len_append, List.length_append]
    omega

theorem prefix_of_le {a b c d : Str} (h : a ++ b = c ++ d) (hl : utf8Len a ≤ utf8Len c) : ∃ e, c = a ++ e ∧ b = e ++ d := by
  rcases prefix_cases h with h1 | ⟨e, he, h1, -⟩
  · exact h1
  · subst h1
    have := utf8Len_pos he
    rw [utf8Len_append] at hl
    omega

/-- The shorter of two prefixes. -/
theorem prefix_min {a b c d : Str} (h : a ++ b = c ++ d) :
    ∃ e f, c = e ++ f ∧ utf8Len e = min (utf8Len a) (utf8Len c) := by
  rcases prefix_cases h with ⟨e, h1, -⟩ | ⟨e, he, h1, -⟩
  · exact ⟨a, e, h1, by subst h1; rw [utf8Len_append]; omega⟩
  · exact ⟨c, [], by simp, by subst h1; rw [utf8Len_append]; omega⟩

theorem trimEnd_split (T : CharTable) (s : Str) : ∃ blank, s = trimEnd T s ++ blank ∧
    (∀ c ∈ blank, T.isWhitespace c = true) ∧ ∀ c, (trimEnd T s).getLast? = some c → T.isWhitespace c = false := by
  refine ⟨(s.reverse.takeWhile T.isWhitespace).reverse, ?_, ?_, ?_⟩
  · unfold trimEnd
    rw [← List.reverse_append, List.takeWhile_append_dropWhile, List.reverse_reverse]
  · intro c hc
    exact takeWhile_all _ _ c (List.mem_reverse.mp hc)
  · intro c hc
    unfold trimEnd at hc
    rw [List.getLast?_reverse] at hc
    exact dropWhile_head _ _ c hc

theorem findChar_split (p : Char → Bool) (s : Str) :
    (findChar p s = none ∧ ∀ c ∈ s, p c = false) ∨
    ∃ w d t, s = w ++ d :: t ∧ findChar p s = some (utf8Len w) ∧ p d = true ∧ ∀ c ∈ w, p c = false := by
  induction s with
  | nil => exact .inl ⟨rfl, by simp⟩
  | cons c s ih =>
    by_cases hc : p c = true
    · exact .inr ⟨[], c, s, rfl, by simp [findChar, hc, utf8Len], hc, by simp⟩
    · have hc' : p c = false := by simpa using hc
      rcases ih with ⟨h1, h2⟩ | ⟨w, d, t, h1, h2, h3, h4⟩
      · refine .inl ⟨by simp [findChar, hc', h1], ?_⟩
        intro x hx
        rcases List.mem_cons.mp hx with rfl | hx
        · exact hc'
        · exact h2 x hx
      · refine .inr ⟨c :: w, d, t, by simp [h1], ?_, h3, ?_⟩
        · simp [findChar, hc', h2, utf8Len_cons, Nat.add_comm]
        · intro x hx
          rcases List.mem_cons.mp hx with rfl | hx
          · exact hc'
          · exact h4 x hx

/-- What the section of a line is. -/
theorem section_spec {T : CharTable} (hT : T.Ascii) {source : Str} {r : SourceRange} (hin : InSource source r)
    (hv : EndsVisibly T source r) {n : Nat} {pre line : Str} (hl : IsLine source n pre line) (ht : Touches r pre line) :
    ∃ before marked after, trimEnd T line = before ++ marked ++ after ∧
      listedSection T r (utf8Len pre) (trimEnd T line) = (utf8Len before, utf8Len (before ++ marked)) ∧
      Shows T source r ⟨n, before, marked, after⟩ pre line := by
  obtain ⟨A, B, D, hsrc, hstart, hstop⟩ := hin
  obtain ⟨aft, hsplit, -⟩ := hl.split
  obtain ⟨blank, hb1, hb2, hb3⟩ := trimEnd_split T line
  obtain ⟨t1, t2⟩ := ht
  generalize hline : trimEnd T line = u at *
  -- the end of the section
  have hend : ∃ e f, u = e ++ f ∧ utf8Len e = min (r.stop - utf8Len pre) (utf8Len u) := by
    have h1 : pre ++ (line ++ aft) = (A ++ B) ++ D := by rw [← hsrc, hsplit]; simp
    obtain ⟨e, h2, h3⟩ := prefix_of_le h1 (by omega)
    rw [hb1, List.append_assoc] at h3
    obtain ⟨e', f', h4, h5⟩ := prefix_min h3.symm
    refine ⟨e', f', h4, ?_⟩
    rw [h5, hstop, h2, utf8Len_append]
    congr 1
    omega
  obtain ⟨e, f, hef, hel⟩ := hend
  have hstopchar : ∀ x c y, u = x ++ c :: y →
      (x.length < e.length ↔ utf8Len pre + utf8Len x < r.stop) := by
    intro x c y hx
    have h1 : e ++ f = x ++ (c :: y) := by rw [← hef, hx]
    have h2 := prefix_le h1
    have h3 : utf8Len x < utf8Len u := by
      rw [hx, utf8Len_append]
      have := utf8Len_pos (s := c :: y) (by simp)
      omega
    constructor
    · intro h
      have : ¬ utf8Len e ≤ utf8Len x := fun hh => by have := h2.mpr hh; omega
      omega
    · intro h
      have : ¬ e.length ≤ x.length := fun hh => by have := h2.mp hh; omega
      omega
  by_cases hlt : r.start > utf8Len pre
  · -- the range begins in the line
    have hbeg : ∃ a b, u = a ++ b ∧ utf8Len a = min (r.start - utf8Len pre) (utf8Len u) := by
      have h1 : pre ++ (line ++ aft) = A ++ (B ++ D) := by rw [← List.append_assoc, ← hsplit, hsrc]; simp
      obtain ⟨e, h2, h3⟩ := prefix_of_le h1 (by omega)
      rw [hb1, List.append_assoc] at h3
      obtain ⟨e', f', h4, h5⟩ := prefix_min h3.symm
      refine ⟨e', f', h4, ?_⟩
      rw [h5, hstart, h2, utf8Len_append]
      congr 1
      omega
    obtain ⟨a, b, hab, hal⟩ := hbeg
    have hle : r.start ≤ r.stop := by rw [hstart, hstop, utf8Len_append]; omega
    obtain ⟨m, hm, hm2⟩ := prefix_of_le (a := a) (b := b) (c := e) (d := f) (by rw [← hab, hef]) (by omega)
    have htext : u = a ++ m ++ f := by rw [hef, hm]
    refine ⟨a, m, f, htext, ?_, hl, ⟨t1, t2⟩, ⟨blank, ?_, hb2, ?_⟩, ?_⟩
    · simp only [listedSection, if_pos hlt]
      rw [hal, ← hm, hel]
    · dsimp only; rw [← htext]; exact hb1
    · dsimp only; rw [← htext]; exact hb3
    · dsimp only
      intro x c y hx
      rw [← htext] at hx
      have h1 : a ++ b = x ++ (c :: y) := by rw [← hab, hx]
      have h2 := prefix_le h1
      have h3 : utf8Len x < utf8Len u := by
        rw [hx, utf8Len_append]
        have := utf8Len_pos (s := c :: y) (by simp)
        omega
      rw [← hm]
      constructor
      · rintro ⟨k1, k2⟩
        have := h2.mp k1
        exact ⟨by omega, (hstopchar x c y hx).mp k2, .inl hlt⟩
      · rintro ⟨k1, k2, -⟩
        exact ⟨h2.mpr (by omega), (hstopchar x c y hx).mpr k2⟩
  · rcases findChar_split (fun c => !T.isWhitespace c) u with ⟨h1, h2⟩ | ⟨w, d, t, h1, h2, h3, h4⟩
    · -- nothing but white space
      have hu : u = [] := by
        cases hlast : u.getLast? with
        | none => simpa using hlast
        | some c =>
          have := hb3 c hlast
          have hc := h2 c (List.mem_of_getLast? hlast)
          simp [this] at hc
      subst hu
      refine ⟨[], [], [], rfl, ?_, hl, ⟨t1, t2⟩, ⟨blank, by simpa using hb1, hb2, by simp⟩, ?_⟩
      · simp only [listedSection, if_neg hlt, h1]
        simp [utf8Len]
      · intro x c y hx
        simp at hx
    · -- the line begins in the range
      have hd : T.isWhitespace d = false := by simpa using h3
      have hw : ∀ c ∈ w, T.isWhitespace c = true := fun c hc => by simpa using h4 c hc
      have hwu : utf8Len w < utf8Len u := by
        rw [h1, utf8Len_append]
        have := utf8Len_pos (s := d :: t) (by simp)
        omega
      have hle : utf8Len w ≤ utf8Len e := by
        rw [hel]
        apply Nat.le_min.mpr
        refine ⟨?_, by omega⟩
        apply Classical.byContradiction
        intro hcon
        rcases hv with hv | ⟨x0, c0, y0, z0, hs0, hs1, hs2, hc0, hy0⟩
        · omega
        · -- the range ends in the white space at the beginning of the line
          have e1 : (x0 ++ c0 :: y0) ++ z0 = pre ++ (w ++ (d :: t ++ blank ++ aft)) := by
            rw [← hs0, hsplit, hb1, h1]; simp
          obtain ⟨p, hp1, hp2⟩ := prefix_of_le e1.symm (by omega)
          obtain ⟨q, hq1, hq2⟩ := prefix_of_le (a := p) (b := z0) (c := w) (d := d :: t ++ blank ++ aft) hp2.symm (by
            have := congrArg utf8Len hp1
            rw [utf8Len_append (a := pre)] at this
            omega)
          -- `c0` lies in `pre`
          have e2 : (x0 ++ [c0]) ++ y0 = pre ++ p := by rw [← hp1]; simp
          rcases prefix_cases e2 with ⟨y1, g1, g2⟩ | ⟨y1, gne, g1, g2⟩
          · rcases hl.begins with hpre | hpre
            · rw [hpre] at g1; simp at g1
            · rw [g1] at hpre
              cases hy1 : y1.getLast? with
              | none =>
                have : y1 = [] := by simpa using hy1
                subst this
                simp at hpre
                have := Ascii.newline hT
                rw [← hpre, hc0] at this
                cases this
              | some c =>
                have hcn : c = '\n' := by
                  rw [List.getLast?_append, hy1] at hpre
                  exact Option.some.inj hpre
                subst hcn
                exact hy0 (by rw [g2]; exact List.mem_append_left _ (List.mem_of_getLast? hy1))
          · have hcw : c0 ∈ w := by
              rw [hq1]
              apply List.mem_append_left
              rw [g2]
              apply List.mem_append_left
              have hl1 : (x0 ++ [c0]).getLast? = some c0 := by simp
              rw [g1, List.getLast?_append] at hl1
              cases hy1 : y1.getLast? with
              | none => exact absurd (by simpa using hy1) gne
              | some c =>
                rw [hy1] at hl1
                have : c = c0 := Option.some.inj hl1
                subst this
                exact List.mem_of_getLast? hy1
            have := hw c0 hcw
            rw [hc0] at this
            cases this
      obtain ⟨m, hm, hm2⟩ := prefix_of_le (a := w) (b := d :: t) (c := e) (d := f) (by rw [← h1, hef]) hle
      have htext : u = w ++ m ++ f := by rw [hef, hm]
      refine ⟨w, m, f, htext, ?_, hl, ⟨t1, t2⟩, ⟨blank, ?_, hb2, ?_⟩, ?_⟩
      · simp only [listedSection, if_neg hlt, h2, Option.getD_some]
        rw [← hm, hel]
      · dsimp only; rw [← htext]; exact hb1
      · dsimp only; rw [← htext]; exact hb3
      · dsimp only
        intro x c y hx
        rw [← htext] at hx
        rw [← hm]
        constructor
        · rintro ⟨k1, k2⟩
          refine ⟨by omega, (hstopchar x c y hx).mp k2, .inr ⟨d, ?_, hd⟩⟩
          have e1 : (w ++ [d]) ++ t = (x ++ [c]) ++ y := by
            have := h1.symm.trans hx
            simpa using this
          have := (prefix_le e1).mp (by simpa using k1)
          obtain ⟨q, hq, -⟩ := prefix_of_le e1 this
          rw [hq]; simp
        · rintro ⟨-, k2, k3⟩
          refine ⟨?_, (hstopchar x c y hx).mpr k2⟩
          rcases k3 with k3 | ⟨d', hd', hd2⟩
          · omega
          · apply Classical.byContradiction
            intro hcon
            have e1 : (x ++ [c]) ++ y = w ++ (d :: t) := by
              have := hx.symm.trans h1
              simpa using this
            obtain ⟨q, hq, -⟩ := prefix_of_le e1 ((prefix_le e1).mp (by simp; omega))
            have := hw d' (by rw [hq]; exact List.mem_append_left _ hd')
            rw [hd2] at this
            cases this

theorem splitOn_cases (sep : Char) (s : Str) : (sep ∉ s ∧ splitOn sep s = [s]) ∨
    ∃ l s', s = l ++ sep :: s' ∧ sep ∉ l ∧ splitOn sep s = l :: splitOn sep s' := by
  by_cases h : sep ∈ s
  · obtain ⟨l, s', h1, h2⟩ := List.eq_append_cons_of_mem h
    refine .inr ⟨l, s', h1, h2, ?_⟩
    rw [h1, splitOn_append, splitOn_of_not_mem h2]
    rfl
  · exact .inl ⟨h, splitOn_of_not_mem h⟩

/-- A line which does not begin before this one: this one, or a later one. -/
theorem isLine_cases {source pre line rest : Str} (hs : source = pre ++ (line ++ rest)) (hl : '\n' ∉ line)
    (hr : rest = [] ∨ ∃ s', rest = '\n' :: s') {k : Nat} {b l : Str} (h : IsLine source k b l) (hb : utf8Len pre ≤ utf8Len b) :
    (b = pre ∧ l = line ∧ k = pre.count '\n' + 1) ∨
      ∃ s', rest = '\n' :: s' ∧ utf8Len (pre ++ line ++ ['\n']) ≤ utf8Len b := by
  obtain ⟨aft, h1, h2⟩ := h.split
  obtain ⟨e, e1, e2⟩ := prefix_of_le (a := pre) (b := line ++ rest) (c := b) (d := l ++ aft) (by rw [← hs, h1]; simp) hb
  by_cases he : e = []
  · subst he
    have hbp : b = pre := by simpa using e1
    refine .inl ⟨hbp, ?_, by rw [h.number, hbp]⟩
    have e3 : line ++ rest = l ++ aft := by simpa using e2
    rcases prefix_cases e3 with ⟨x, g1, g2⟩ | ⟨x, gne, g1, g2⟩
    · cases x with
      | nil => simpa using g1
      | cons c x =>
        have hc : c = '\n' := by
          rcases hr with hr | ⟨s', hr⟩
          · rw [hr] at g2; simp at g2
          · rw [hr] at g2; simp at g2; exact g2.1.symm
        exact absurd (by rw [g1, hc]; simp) h.whole
    · cases x with
      | nil => exact absurd rfl gne
      | cons c x =>
        have hc : c = '\n' := by
          rcases h2 with h2 | h2
          · rw [h2] at g2; simp at g2
          · rw [g2] at h2; simpa using h2
        exact absurd (by rw [g1, hc]; simp) hl
  · have hlast : e.getLast? = some '\n' := by
      rcases h.begins with hb | hb
      · rw [hb] at e1
        have := congrArg List.length e1
        simp at this
        exact absurd (List.length_eq_zero_iff.mp (by omega)) he
      · rw [e1, List.getLast?_append] at hb
        cases hy : e.getLast? with
        | none => exact absurd (by simpa using hy) he
        | some c => rw [hy] at hb; simpa using hb
    rcases prefix_cases e2 with ⟨x, g1, g2⟩ | ⟨x, gne, g1, g2⟩
    · rcases hr with hr | ⟨s', hr⟩
      · rw [hr] at g2
        simp at g2
        rw [g2.1] at g1
        have : '\n' ∈ line := by
          have hm := List.mem_of_getLast? hlast
          simpa [g1] using hm
        exact absurd this hl
      · cases x with
        | nil =>
          have : '\n' ∈ line := by
            have hm := List.mem_of_getLast? hlast
            simpa [g1] using hm
          exact absurd this hl
        | cons c x =>
          have hc : c = '\n' := by
            rw [hr] at g2; simp at g2; exact g2.1.symm
          refine .inr ⟨s', hr, ?_⟩
          rw [e1, g1, hc]
          have : utf8Len ([] : Str) = 0 := rfl
          have h2 : ('\n' : Char).utf8Size = 1 := by decide
          simp only [utf8Len_append, utf8Len_cons, h2]
          omega
    · exact absurd (by rw [g1]; exact List.mem_append_left _ (List.mem_of_getLast? hlast)) hl

/-- The loop over the lines, from a line break on. -/
theorem listedLines_spec {T : CharTable} (hT : T.Ascii) {source : Str} {r : SourceRange} (hin : InSource source r)
    (hv : EndsVisibly T source r) : ∀ (n : Nat) (s pre : Str), s.length < n → source = pre ++ s →
    (pre = [] ∨ pre.getLast? = some '\n') →
    ∃ shown : List (Shown × Str × Str),
      listedLines T r (pre.count '\n') (utf8Len pre) (splitOn '\n' s) =
        shown.map (fun p => ⟨p.1.number, p.1.before ++ p.1.marked ++ p.1.after, utf8Len p.1.before,
          utf8Len (p.1.before ++ p.1.marked)⟩) ∧
      (∀ p ∈ shown, Shows T source r p.1 p.2.1 p.2.2 ∧ pre.count '\n' < p.1.number) ∧
      shown.Pairwise (fun p q => p.1.number < q.1.number) ∧
      ∀ k b l, IsLine source k b l → Touches r b l → utf8Len pre ≤ utf8Len b → ∃ p ∈ shown, p.1.number = k := by
  intro n
  induction n with
  | zero => intro s pre hs; omega
  | succ n ih =>
    intro s pre hs hsrc hpre
    -- the first line, and the rest
    obtain ⟨line, rest, lines, hsl, hnl, hr, hlines, hnext⟩ : ∃ line rest lines, s = line ++ rest ∧ '\n' ∉ line ∧
        (rest = [] ∨ ∃ s', rest = '\n' :: s') ∧ splitOn '\n' s = line :: lines ∧
        ((rest = [] ∧ lines = []) ∨ ∃ s', rest = '\n' :: s' ∧ lines = splitOn '\n' s') := by
      rcases splitOn_cases '\n' s with ⟨h1, h2⟩ | ⟨l, s', h1, h2, h3⟩
      · exact ⟨s, [], [], by simp, h1, .inl rfl, h2, .inl ⟨rfl, rfl⟩⟩
      · exact ⟨l, '\n' :: s', splitOn '\n' s', h1, h2, .inr ⟨s', rfl⟩, h3, .inr ⟨s', rfl, rfl⟩⟩
    have hsrc' : source = pre ++ (line ++ rest) := by rw [hsrc, hsl]
    have hline : IsLine source (pre.count '\n' + 1) pre line := by
      refine ⟨⟨rest, by rw [hsrc']; simp, ?_⟩, hpre, hnl, rfl⟩
      rcases hr with hr | ⟨s', hr⟩
      · exact .inl hr
      · exact .inr (by rw [hr]; rfl)
    -- the lines after it
    have hrec : ∃ shown : List (Shown × Str × Str),
        listedLines T r (pre.count '\n' + 1) (utf8Len pre + (utf8Len line + 1)) lines =
          shown.map (fun p => ⟨p.1.number, p.1.before ++ p.1.marked ++ p.1.after, utf8Len p.1.before,
            utf8Len (p.1.before ++ p.1.marked)⟩) ∧
        (∀ p ∈ shown, Shows T source r p.1 p.2.1 p.2.2 ∧ pre.count '\n' + 1 < p.1.number) ∧
        shown.Pairwise (fun p q => p.1.number < q.1.number) ∧
        ∀ k b l, IsLine source k b l → Touches r b l → (∃ s', rest = '\n' :: s') →
          utf8Len (pre ++ line ++ ['\n']) ≤ utf8Len b → ∃ p ∈ shown, p.1.number = k := by
      rcases hnext with ⟨hr, hls⟩ | ⟨s', hr, hls⟩
      · refine ⟨[], by rw [hls]; simp [listedLines], by simp, .nil, ?_⟩
        rintro k b l - - ⟨s', h⟩ -
        rw [hr] at h; cases h
      · obtain ⟨shown, h1, h2, h3, h4⟩ := ih s' (pre ++ line ++ ['\n'])
          (by rw [hsl, hr] at hs; simp at hs; omega) (by rw [hsrc', hr]; simp) (.inr (by simp))
        have hcount : (pre ++ line ++ ['\n']).count '\n' = pre.count '\n' + 1 := by
          simp only [List.count_append, List.count_eq_zero.mpr hnl]
          simp
        have hlen : utf8Len (pre ++ line ++ ['\n']) = utf8Len pre + (utf8Len line + 1) := by
          simp only [utf8Len_append]
          have : utf8Len ['\n'] = 1 := by decide
          omega
        rw [hcount, hlen] at h1
        rw [hcount] at h2
        exact ⟨shown, by rw [hls]; exact h1, h2, h3, fun k b l g1 g2 _ g3 => h4 k b l g1 g2 g3⟩
    rw [hlines]
    unfold listedLines
    split
    · -- past the range
      rename_i hge
      refine ⟨[], rfl, by simp, .nil, ?_⟩
      intro k b l _ ht hle
      have := ht.1
      omega
    · rename_i hge
      obtain ⟨shown, r1, r2, r3, r4⟩ := hrec
      split
      · -- before the range
        rename_i hbefore
        refine ⟨shown, r1, fun p hp => ⟨(r2 p hp).1, by have := (r2 p hp).2; omega⟩, r3, ?_⟩
        intro k b l g1 g2 g3
        rcases isLine_cases hsrc' hnl hr g1 g3 with ⟨e1, e2, e3⟩ | ⟨s', e1, e2⟩
        · have := g2.2
          rw [e1, e2] at this
          omega
        · exact r4 k b l g1 g2 ⟨s', e1⟩ e2
      · rename_i hbefore
        have htouch : Touches r pre line := ⟨by omega, by omega⟩
        obtain ⟨before, marked, after, q1, q2, q3⟩ := section_spec hT hin hv hline htouch
        refine ⟨(⟨pre.count '\n' + 1, before, marked, after⟩, pre, line) :: shown, ?_, ?_, ?_, ?_⟩
        · simp only [List.map_cons]
          rw [q2, r1, q1]
        · intro p hp
          rcases List.mem_cons.mp hp with rfl | hp
          · exact ⟨q3, by simp⟩
          · exact ⟨(r2 p hp).1, by have := (r2 p hp).2; omega⟩
        · exact .cons (fun p hp => (r2 p hp).2) r3
        · intro k b l g1 g2 g3
          rcases isLine_cases hsrc' hnl hr g1 g3 with ⟨e1, e2, e3⟩ | ⟨s', e1, e2⟩
          · exact ⟨_, List.mem_cons_self .., e3.symm⟩
          · obtain ⟨p, hp, hk⟩ := r4 k b l g1 g2 ⟨s', e1⟩ e2
            exact ⟨p, List.mem_cons_of_mem _ hp, hk⟩

theorem renderLine_eq (C : Colors) (gutter : Nat) (last : Bool) (sh : Shown) :
    renderLine C gutter last ⟨sh.number, sh.before ++ sh.marked ++ sh.after, utf8Len sh.before,
      utf8Len (sh.before ++ sh.marked)⟩ = some (sh.render C gutter last) := by
  unfold renderLine
  dsimp only
  rw [slice_append, slice_end, List.append_assoc, slice_zero]
  dsimp only
  unfold Shown.render
  congr 1
  congr 1
  by_cases hc : C.on = true
  · simp [hc]
  · rw [if_neg hc, if_neg hc]
    by_cases hm : sh.marked = []
    · simp [hm]
    · have := utf8Len_pos hm
      rw [if_neg (by rw [utf8Len_append]; omega), if_neg hm, utf8Len_append, Nat.add_sub_cancel_left]
      simp

theorem renderLines_eq (C : Colors) (gutter : Nat) : ∀ shown : List (Shown × Str × Str),
    renderLines C gutter (shown.map (fun p => ⟨p.1.number, p.1.before ++ p.1.marked ++ p.1.after, utf8Len p.1.before,
      utf8Len (p.1.before ++ p.1.marked)⟩)) = some (renderAll C gutter (shown.map Prod.fst))
  | [] => rfl
  | [p] => by
    simp only [List.map_cons, List.map_nil]
    rw [renderLines, renderLine_eq]
    rfl
  | p :: q :: rest => by
    have ih := renderLines_eq C gutter (q :: rest)
    simp only [List.map_cons] at ih ⊢
    rw [renderLines, renderLine_eq, ih]
    rfl

theorem foldl_max {α : Type} (f : α → Nat) (l : List α) : ∀ k : Nat,
    (∀ a ∈ l, f a ≤ l.foldl (fun acc a => max acc (f a)) k) ∧ k ≤ l.foldl (fun acc a => max acc (f a)) k ∧
    (l.foldl (fun acc a => max acc (f a)) k = k ∨ ∃ a ∈ l, f a = l.foldl (fun acc a => max acc (f a)) k) := by
  induction l with
  | nil => intro k; exact ⟨by simp, Nat.le_refl _, .inl rfl⟩
  | cons a l ih =>
    intro k
    obtain ⟨h1, h2, h3⟩ := ih (max k (f a))
    simp only [List.foldl_cons]
    refine ⟨?_, by omega, ?_⟩
    · intro b hb
      rcases List.mem_cons.mp hb with rfl | hb
      · omega
      · exact h1 b hb
    · rcases h3 with h3 | ⟨b, hb, h3⟩
      · rcases Nat.le_total k (f a) with h | h
        · exact .inr ⟨a, List.mem_cons_self .., by omega⟩
        · exact .inl (by omega)
      · exact .inr ⟨b, List.mem_cons_of_mem _ hb, h3⟩

end Typical
