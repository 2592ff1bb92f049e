import Verif.Front.ParserRanges

/-!
# Properties of listings (C49) and of merged errors (C50)
-/

namespace Typical

/-- C49: the listing of a range which names a part of the source, and is empty or ends with a visible character's line, does not
panic; it shows exactly the lines the range touches, each once and in order, and highlights as `Shows` says. -/
theorem C49_listing {T : CharTable} (hT : T.Ascii) (C : Colors) {source : Str} {r : SourceRange} (hin : InSource source r)
    (hv : EndsVisibly T source r) :
    ∃ (shown : List Shown) (gutter : Nat), listing T C source r = some (joinWith ['\n'] (renderAll C gutter shown)) ∧
      (∀ sh ∈ shown, ∃ pre line, Shows T source r sh pre line) ∧
      shown.Pairwise (fun s t => s.number < t.number) ∧
      (∀ k pre line, IsLine source k pre line → Touches r pre line → ∃ sh ∈ shown, sh.number = k) ∧
      (∀ sh ∈ shown, (showNat sh.number).length ≤ gutter) ∧
      (shown ≠ [] → ∃ sh ∈ shown, (showNat sh.number).length = gutter) := by
  obtain ⟨shown, h1, h2, h3, h4⟩ := listedLines_spec hT hin hv (source.length + 1) source [] (by omega) rfl (.inl rfl)
  have h1' : listedLines T r 0 0 (splitOn '\n' source) = _ := h1
  refine ⟨shown.map Prod.fst, (shown.map Prod.fst).foldl (fun acc l => max acc (showNat l.number).length) 0, ?_, ?_, ?_, ?_, ?_, ?_⟩
  · unfold listing
    dsimp only
    rw [h1']
    rw [List.foldl_map, List.foldl_map, renderLines_eq]
    rfl
  · intro sh hs
    obtain ⟨p, hp, rfl⟩ := List.mem_map.mp hs
    exact ⟨_, _, (h2 p hp).1⟩
  · exact List.pairwise_map.mpr h3
  · intro k pre line hl ht
    obtain ⟨p, hp, hk⟩ := h4 k pre line hl ht (Nat.zero_le _)
    exact ⟨p.1, List.mem_map_of_mem hp, hk⟩
  · exact (foldl_max (fun l : Shown => (showNat l.number).length) (shown.map Prod.fst) 0).1
  · intro hne
    rcases (foldl_max (fun l : Shown => (showNat l.number).length) (shown.map Prod.fst) 0).2.2 with h | h
    · obtain ⟨sh, hsh⟩ := List.exists_mem_of_ne_nil _ hne
      have := (foldl_max (fun l : Shown => (showNat l.number).length) (shown.map Prod.fst) 0).1 sh hsh
      exact ⟨sh, hsh, by omega⟩
    · exact h

/-- C49: each error of the tokenizer can be listed. -/
theorem C49_tokenizer_errors {T : CharTable} (hT : T.Ascii) (hS : T.SpaceApart) {source : Str} {es : List LexErr}
    (h : tokenize T source = .error es) (C : Colors) : ∀ e ∈ es, InSource source e.sourceRange ∧
      EndsVisibly T source e.sourceRange ∧ listing T C source e.sourceRange ≠ none := by
  intro e he
  have := lexErrors_listable hT hS h e he
  obtain ⟨_, _, h1, -⟩ := C49_listing hT C this.1 this.2
  exact ⟨this.1, this.2, by rw [h1]; simp⟩

/-- C49: each error of the parser can be listed. -/
theorem C49_parser_errors {T : CharTable} (hT : T.Ascii) (hS : T.SpaceApart) {source : Str} {toks : List Token}
    (ht : tokenize T source = .ok toks) {es : List ParseErr} (h : parse T toks = .err es) (C : Colors) :
    ∀ e ∈ es, InSource source e.sourceRange ∧ EndsVisibly T source e.sourceRange ∧
      listing T C source e.sourceRange ≠ none := by
  intro e he
  have := rangeOk_listable hT hS ((tokenize_iff hT hS source toks).mp ht) (parse_errors_ok h e he).1
  obtain ⟨_, _, h1, -⟩ := C49_listing hT C this.1 this.2
  exact ⟨this.1, this.2, by rw [h1]; simp⟩

/-- C49: each source range in a parsed schema can be listed; the loader and the validator list only those. -/
theorem C49_schema_ranges {T : CharTable} (hT : T.Ascii) (hS : T.SpaceApart) {source : Str} {toks : List Token}
    (ht : tokenize T source = .ok toks) {schema : Schema} (h : parse T toks = .ok schema) (C : Colors) :
    ∀ r ∈ schema.ranges, InSource source r ∧ EndsVisibly T source r ∧ listing T C source r ≠ none := by
  intro r hr
  have := rangeOk_listable hT hS ((tokenize_iff hT hS source toks).mp ht) (parse_schema_ok h r hr)
  obtain ⟨_, _, h1, -⟩ := C49_listing hT C this.1 this.2
  exact ⟨this.1, this.2, by rw [h1]; simp⟩

theorem utf8Len_ascii (s : Str) (h : ∀ c ∈ s, c.toNat < 128) : utf8Len s = s.length := by
  induction s with
  | nil => rfl
  | cons c s ih =>
    have hc : c.utf8Size = 1 := by
      have := h c (by simp)
      unfold Char.utf8Size
      have e : c.toNat = c.val.toNat := rfl
      have : c.val ≤ 0x7F := by
        rw [UInt32.le_iff_toNat_le]; show _ ≤ 127; omega
      rw [if_pos (by exact this)]
    rw [utf8Len_cons, ih (fun d hd => h d (by simp [hd])), hc]
    simp; omega

/-- C49: without colours, a shown line whose characters up to the end of the marked part are ASCII is rendered as two lines; the
second has as many marks as there are marked characters, in the same columns. -/
theorem C49_ascii_aligned (gutter : Nat) (last : Bool) (sh : Shown) (hg : (showNat sh.number).length ≤ gutter)
    (hm : sh.marked ≠ []) (h : ∀ c ∈ sh.before ++ sh.marked, c.toNat < 128) :
    ∃ first blank, sh.render .none gutter last =
        (first ++ sh.marked ++ sh.after) ++ '\n' :: (blank ++ List.replicate sh.marked.length '\u203e') ∧
      first.length = blank.length ∧ sh.before <:+ first := by
  refine ⟨padLeft gutter (showNat sh.number) ++ [' ', '\u2502', ' '] ++ sh.before,
    repeated gutter ' ' ++ [' ', if last then ' ' else '\u250a'] ++ [' '] ++ repeated sh.before.length ' ', ?_, ?_, ?_⟩
  · unfold Shown.render
    rw [utf8Len_ascii sh.before (fun c hc => h c (by simp [hc])), utf8Len_ascii sh.marked (fun c hc => h c (by simp [hc]))]
    simp [Colors.none, hm, repeated]
  · simp [padLeft, repeated]; omega
  · exact ⟨_, rfl⟩

/-- A range which ends in the white space at the beginning of a line makes `listing` panic (the tool makes no such ranges). -/
theorem C49_panic_witness : listing asciiTable .none "  x".toList ⟨0, 1⟩ = none := by decide +kernel

/-- The marks are not aligned after a character which is not ASCII: three spaces, although two columns precede. -/
theorem C49_misaligned_witness : listing asciiTable .none "\u00e9 x".toList ⟨3, 4⟩ =
    some "1 \u2502 \u00e9 x\n       \u203e".toList := by decide +kernel

/-- An unexpected symbol at the beginning of a line is an error with an empty listing. -/
theorem C49_nothing_shown_witness : (match tokenize asciiTable "\n@".toList with
    | .error es => es.map (fun e => listing asciiTable .none "\n@".toList e.sourceRange)
    | .ok _ => []) = [some []] := by decide +kernel

/-- Examples: two lines, of which the first is shown from the range on. -/
example : listing asciiTable .none "foo bar \n  baz\nqux".toList ⟨4, 14⟩ =
    some ("1 \u2502 foo bar\n  \u250a     \u203e\u203e\u203e\n2 \u2502   baz\n      \u203e\u203e\u203e").toList := by
  decide +kernel

example : InSource "foo bar \n  baz\nqux".toList ⟨4, 14⟩ ∧ EndsVisibly asciiTable "foo bar \n  baz\nqux".toList ⟨4, 14⟩ :=
  ⟨⟨"foo ".toList, "bar \n  baz".toList, "\nqux".toList, by decide, by decide, by decide⟩,
   .inr ⟨"foo bar \n  ba".toList, 'z', [], "\nqux".toList, by decide, by decide, by decide, by decide, by decide⟩⟩

/-! ### Merged errors -/

theorem InOrder.snoc {T : CharTable} {ts : List Str} {s : Str} (h : InOrder T ts s) {gap t gap' : Str}
    (h1 : ∀ c ∈ gap, T.isWhitespace c = true) (h2 : ∀ c ∈ gap', T.isWhitespace c = true) :
    InOrder T (ts ++ [t]) (s ++ gap ++ t ++ gap') := by
  induction h with
  | @nil g hg =>
    refine .cons (gap := g ++ gap) ?_ (.nil h2)
    intro c hc
    rcases List.mem_append.mp hc with hc | hc
    · exact hg c hc
    · exact h1 c hc
  | @cons g u us s hg h ih =>
    have := InOrder.cons (t := u) hg ih
    simpa [List.append_assoc] using this

theorem InOrder.reverse {T : CharTable} {ts : List Str} {s : Str} (h : InOrder T ts s) :
    InOrder T (ts.map List.reverse).reverse s.reverse := by
  induction h with
  | nil hg => exact .nil (by simpa using hg)
  | @cons g u us s hg h ih =>
    have := ih.snoc (gap := []) (t := u.reverse) (gap' := g.reverse) (by simp) (by simpa using hg)
    simpa [List.append_assoc] using this

theorem InOrder.dropWhile {T : CharTable} {ts : List Str} {s : Str} (h : InOrder T ts s)
    (ht : ∀ t ∈ ts, ∀ c, t.head? = some c → T.isWhitespace c = false) :
    InOrder T ts (s.dropWhile T.isWhitespace) := by
  induction h with
  | @nil g hg =>
    refine .nil ?_
    intro c hc
    exact hg c ((List.dropWhile_sublist _).subset hc)
  | @cons g u us s hg h ih =>
    have e : (g ++ u ++ s).dropWhile T.isWhitespace = (u ++ s).dropWhile T.isWhitespace := by
      rw [List.append_assoc]
      generalize u ++ s = v
      clear h ih ht
      induction g with
      | nil => rfl
      | cons c g ihg =>
        rw [List.cons_append, List.dropWhile_cons, if_pos (hg c (by simp))]
        exact ihg (fun d hd => hg d (by simp [hd]))
    rw [e]
    cases u with
    | nil => exact .cons (gap := []) (t := []) (by simp) (ih (fun t h => ht t (by simp [h])))
    | cons c u =>
      have : T.isWhitespace c = false := ht (c :: u) (by simp) c rfl
      rw [List.cons_append, List.dropWhile_cons, if_neg (by simp [this])]
      exact .cons (gap := []) (t := c :: u) (by simp) h

theorem InOrder.trim {T : CharTable} {ts : List Str} {s : Str} (h : InOrder T ts s)
    (ht : ∀ t ∈ ts, (∀ c, t.head? = some c → T.isWhitespace c = false) ∧ ∀ c, t.getLast? = some c → T.isWhitespace c = false) :
    InOrder T ts (trim T s) := by
  have h1 := (h.dropWhile (fun t h => (ht t h).1)).reverse
  have h2 := (h1.dropWhile (by
    intro t hm c hc
    obtain ⟨u, hu, rfl⟩ := List.mem_map.mp (List.mem_reverse.mp hm)
    rw [List.head?_reverse] at hc
    exact (ht u hu).2 c hc)).reverse
  have e : ((ts.map List.reverse).reverse.map List.reverse).reverse = ts := by
    simp [← List.map_reverse, Function.comp_def]
  rw [e] at h2
  exact h2

/-- C50: merging loses no error: the merged text consists of the texts of all errors, in order, without the white space at their
ends, and with only white space between them. It neither begins nor ends with white space. -/
theorem C50_merge {T : CharTable} (hT : T.Ascii) (errors : List Str) :
    InOrder T (errors.map (trim T)) (mergeErrors T errors) ∧
      (∀ c, (mergeErrors T errors).head? = some c → T.isWhitespace c = false) ∧
      (∀ c, (mergeErrors T errors).getLast? = some c → T.isWhitespace c = false) := by
  have nl := Ascii.newline hT
  have key : ∀ (done : List Str) (acc : Str), InOrder T (done.map (trim T)) acc → ∀ rest : List Str,
      InOrder T ((done ++ rest).map (trim T))
        (rest.foldl (fun acc e => acc ++ ['\n'] ++ (if endsBlank acc then [] else ['\n']) ++ e) acc) := by
    intro done acc h rest
    induction rest generalizing done acc with
    | nil => simpa using h
    | cons e rest ih =>
      have := ih (done ++ [e]) (acc ++ ['\n'] ++ (if endsBlank acc then [] else ['\n']) ++ e) (by
        obtain ⟨⟨a, b, he, ha, hb⟩, -⟩ := trim_spec T e
        have hsn := h.snoc (gap := ['\n'] ++ (if endsBlank acc then [] else ['\n']) ++ a) (t := trim T e) (gap' := b) (by
          intro c hc
          simp only [List.mem_append] at hc
          rcases hc with (hc | hc) | hc
          · rw [List.mem_singleton.mp hc]; exact nl
          · split at hc
            · simp at hc
            · rw [List.mem_singleton.mp hc]; exact nl
          · exact ha c hc) hb
        have e2 : acc ++ ['\n'] ++ (if endsBlank acc then [] else ['\n']) ++ e =
            acc ++ (['\n'] ++ (if endsBlank acc then [] else ['\n']) ++ a) ++ trim T e ++ b := by
          conv => lhs; rw [he]
          simp [List.append_assoc]
        rw [e2]
        simpa using hsn)
      simpa [List.append_assoc] using this
  have h := key [] [] (.nil (by simp)) errors
  obtain ⟨-, t1, t2⟩ := trim_spec T
    (errors.foldl (fun acc e => acc ++ ['\n'] ++ (if endsBlank acc then [] else ['\n']) ++ e) [])
  refine ⟨h.trim ?_, t1, t2⟩
  intro t ht
  obtain ⟨u, hu, rfl⟩ := List.mem_map.mp (by simpa using ht)
  exact (trim_spec T u).2

example : mergeErrors asciiTable ["one ".toList, "two".toList] = "one \n\ntwo".toList := by decide +kernel

end Typical
