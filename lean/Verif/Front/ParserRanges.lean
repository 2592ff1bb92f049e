import Verif.Front.RangeLemmas
import Verif.Spec.Expectations

/-!
# The source ranges in the errors and results of the parser
-/

namespace Typical

/-- From one token to the same or a later one, or an empty range beside a token. -/
def RangeOk (toks : List Token) (r : SourceRange) : Prop :=
  (∃ (i j : Nat) (t u : Token), i ≤ j ∧ toks[i]? = some t ∧ toks[j]? = some u ∧
    r = ⟨t.sourceRange.start, u.sourceRange.stop⟩) ∨
  r = ⟨0, 0⟩ ∨ ∃ t ∈ toks, r = ⟨t.sourceRange.start, t.sourceRange.start⟩ ∨ r = ⟨t.sourceRange.stop, t.sourceRange.stop⟩

theorem rangeOk_listable {T : CharTable} (hT : T.Ascii) (hS : T.SpaceApart) {s : Str} {ts : List Token}
    (h : Lexes T 0 s ts) {r : SourceRange} (hr : RangeOk ts r) : Listable T s r := by
  obtain ⟨l1, l2, -⟩ := lexes_ranges h
  rcases hr with ⟨i, j, t, u, hij, ht, hu, rfl⟩ | rfl | ⟨t, ht, rfl | rfl⟩
  · refine tokenSpan_listable hT hS h ⟨t, List.mem_of_getElem? ht, u, List.mem_of_getElem? hu, rfl, ?_⟩
    obtain ⟨hi, ht'⟩ := List.getElem?_eq_some_iff.mp ht
    obtain ⟨hj, hu'⟩ := List.getElem?_eq_some_iff.mp hu
    rcases Nat.lt_or_ge i j with hlt | hge
    · have := List.pairwise_iff_getElem.mp l2 i j hi hj hlt
      rw [ht', hu'] at this
      have := (l1 t (List.mem_of_getElem? ht)).1
      omega
    · obtain rfl : i = j := by omega
      rw [ht] at hu; cases hu; exact Nat.le_refl _
  · exact empty_listable (T := T) (s := s) (a := []) (b := s) rfl
  · obtain ⟨-, a, b, c, e, er⟩ := l1 t ht
    have : t.sourceRange.start = utf8Len a := by rw [er]; simp
    rw [this]
    exact empty_listable (b := b ++ c) (by rw [e]; simp)
  · obtain ⟨-, a, b, c, e, er⟩ := l1 t ht
    have : t.sourceRange.stop = utf8Len (a ++ b) := by rw [er]; simp
    rw [this]
    exact empty_listable (b := c) e

/-- If the error is about the token at a position, its range is that of the position; and it is not about tokens left over. -/
def AtPosition (toks : List Token) (e : ParseErr) : Prop :=
  (∀ what, e.kind = .expected what → ∃ pos, pos ≤ toks.length ∧ e.sourceRange = tokenSourceRange toks pos ∧
    (∃ v, Names what v) ∧ ∀ t, toks[pos]? = some t → ¬ Names what t.variant) ∧
    e.kind ≠ .unexpected

def ErrsOk (toks : List Token) (es : List ParseErr) : Prop := ∀ e ∈ es, RangeOk toks e.sourceRange ∧ AtPosition toks e

theorem ErrsOk.snoc {toks : List Token} {es : List ParseErr} (h : ErrsOk toks es) {e : ParseErr}
    (he : RangeOk toks e.sourceRange) (hk : AtPosition toks e := by exact ⟨fun _ h => (by cases h), fun h => by cases h⟩) :
    ErrsOk toks (es ++ [e]) := by
  intro x hx
  rcases List.mem_append.mp hx with hx | hx
  · exact h x hx
  · rw [List.mem_singleton.mp hx]; exact ⟨he, hk⟩

theorem tokenSourceRange_ok (toks : List Token) (pos : Nat) : RangeOk toks (tokenSourceRange toks pos) := by
  unfold tokenSourceRange
  cases h : toks[pos]? with
  | some t => exact .inl ⟨pos, pos, t, t, Nat.le_refl _, h, h, rfl⟩
  | none =>
    dsimp only
    cases hl : toks.getLast? with
    | none => exact .inr (.inl rfl)
    | some t => exact .inr (.inr ⟨t, List.mem_of_getLast? hl, .inr rfl⟩)

theorem spanTokens_ranged {toks : List Token} {start stop : Nat} (h1 : start ≤ stop) (h2 : stop ≤ toks.length) :
    RangeOk toks (spanTokens toks start stop) := by
  unfold spanTokens
  split
  · exact tokenSourceRange_ok _ _
  have hs : start < toks.length := by omega
  have es : toks[start]? = some toks[start] := List.getElem?_eq_getElem hs
  split
  · refine .inr (.inr ⟨toks[start], List.getElem_mem _, .inl ?_⟩)
    simp [tokenSourceRange, es]
  · have ht : stop - 1 < toks.length := by omega
    have et : toks[stop - 1]? = some toks[stop - 1] := List.getElem?_eq_getElem ht
    refine .inl ⟨start, stop - 1, toks[start], toks[stop - 1], by omega, es, et, ?_⟩
    simp [tokenSourceRange, es, et]

/-- The position only advances, all errors have good ranges, and the result satisfies `P`. -/
def Ranged {α : Type} (toks : List Token) (start : Nat) (P : α → Prop) : PRes α → Prop
  | .panic => True
  | .none pos es => start ≤ pos ∧ pos ≤ toks.length ∧ ErrsOk toks es
  | .some a pos es => start ≤ pos ∧ pos ≤ toks.length ∧ ErrsOk toks es ∧ P a

theorem Ranged.bind {α β : Type} {toks : List Token} {start : Nat} {P : α → Prop} {Q : β → Prop} {r : PRes α}
    {k : α → Nat → List ParseErr → PRes β} (h : Ranged toks start P r)
    (hk : ∀ a pos es, start ≤ pos → pos ≤ toks.length → ErrsOk toks es → P a → Ranged toks pos Q (k a pos es)) :
    Ranged toks start Q (r.bind k) := by
  cases r with
  | panic => trivial
  | none pos es => exact h
  | some a pos es =>
    obtain ⟨h1, h2, h3, h4⟩ := h
    have := hk a pos es h1 h2 h3 h4
    dsimp only [PRes.bind]
    generalize k a pos es = r' at this
    cases r' with
    | panic => trivial
    | none pos' es' => exact ⟨Nat.le_trans h1 this.1, this.2⟩
    | some b pos' es' => exact ⟨Nat.le_trans h1 this.1, this.2⟩

theorem Ranged.weaken {α : Type} {toks : List Token} {start start' : Nat} {P : α → Prop} {r : PRes α} (hs : start' ≤ start)
    (h : Ranged toks start P r) : Ranged toks start' P r := by
  cases r with
  | panic => trivial
  | none pos' es' => exact ⟨Nat.le_trans hs h.1, h.2⟩
  | some b pos' es' => exact ⟨Nat.le_trans hs h.1, h.2⟩

/-- What the expectation stands for is not at the position. -/
def Missing (toks : List Token) (pos : Nat) (what : String) : Prop :=
  (∃ v, Names what v) ∧ ∀ t, toks[pos]? = some t → ¬ Names what t.variant

theorem Ranged.fail {α : Type} {toks : List Token} {pos : Nat} {P : α → Prop} {es : List ParseErr} (hp : pos ≤ toks.length)
    (he : ErrsOk toks es) {what : String} (hm : Missing toks pos what) :
    Ranged toks pos P (.none pos (es ++ [unexpectedToken toks pos what]) : PRes α) :=
  ⟨Nat.le_refl _, hp, he.snoc (tokenSourceRange_ok _ _) ⟨fun _ h => by cases h; exact ⟨pos, hp, rfl, hm⟩, fun h => by cases h⟩⟩

theorem names_fixed {what : String} {v v' : TokVariant} (h : (what, v) ∈ fixedExpectations) (hd : what ≠ "a declaration")
    (hn : Names what v') : v' = v := by
  have h1 : ∀ p ∈ fixedExpectations, p.1 ≠ "a declaration" → p.1 ∉ nameExpectations ∧ p.1 ≠ "an index for the field" ∧
      p.1 ≠ "the path of a file to import" ∧ ∀ q ∈ fixedExpectations, q.1 = p.1 → q.2 = p.2 := by decide
  obtain ⟨a, b, c, d⟩ := h1 _ h hd
  rcases hn with hn | hn | hn | hn
  · exact d _ hn rfl
  · exact absurd hn.1 a
  · exact absurd hn.1 b
  · exact absurd hn.1 c

theorem names_name {what : String} {v : TokVariant} (h : what ∈ nameExpectations) (hn : Names what v) : ∃ i, v = .identifier i := by
  have h1 : ∀ w ∈ nameExpectations, w ∉ fixedExpectations.map Prod.fst ∧ w ≠ "an index for the field" ∧
      w ≠ "the path of a file to import" := by decide
  obtain ⟨a, b, c⟩ := h1 _ h
  rcases hn with hn | hn | hn | hn
  · exact absurd (List.mem_map.mpr ⟨_, hn, rfl⟩) a
  · exact hn.2
  · exact absurd hn.1 b
  · exact absurd hn.1 c

theorem names_integer {v : TokVariant} (hn : Names "an index for the field" v) : ∃ n, v = .integer n := by
  have h1 : "an index for the field" ∉ fixedExpectations.map Prod.fst ∧ "an index for the field" ∉ nameExpectations ∧
      "an index for the field" ≠ "the path of a file to import" := by decide
  rcases hn with hn | hn | hn | hn
  · exact absurd (List.mem_map.mpr ⟨_, hn, rfl⟩) h1.1
  · exact absurd hn.1 h1.2.1
  · exact hn.2
  · exact absurd hn.1 h1.2.2

theorem names_path {v : TokVariant} (hn : Names "the path of a file to import" v) : ∃ n, v = .path n := by
  have h1 : "the path of a file to import" ∉ fixedExpectations.map Prod.fst ∧ "the path of a file to import" ∉ nameExpectations ∧
      "the path of a file to import" ≠ "an index for the field" := by decide
  rcases hn with hn | hn | hn | hn
  · exact absurd (List.mem_map.mpr ⟨_, hn, rfl⟩) h1.1
  · exact absurd hn.1 h1.2.1
  · exact absurd hn.1 h1.2.2
  · exact hn.2

theorem names_declaration {v : TokVariant} (hn : Names "a declaration" v) : v = .struct ∨ v = .choice := by
  have h1 : "a declaration" ∉ nameExpectations ∧ "a declaration" ≠ "an index for the field" ∧
      "a declaration" ≠ "the path of a file to import" ∧
      ∀ q ∈ fixedExpectations, q.1 = "a declaration" → q.2 = .struct ∨ q.2 = .choice := by decide
  rcases hn with hn | hn | hn | hn
  · exact h1.2.2.2 _ hn rfl
  · exact absurd hn.1 h1.1
  · exact absurd hn.1 h1.2.1
  · exact absurd hn.1 h1.2.2.1

theorem missing_type {toks : List Token} {pos : Nat} (h : variantAt toks pos = none) : Missing toks pos "a type" :=
  ⟨⟨.identifier ⟨[], []⟩, .inr (.inl ⟨by decide, _, rfl⟩)⟩, fun t ht => by simp [variantAt, ht] at h⟩

theorem get_lt {toks : List Token} {pos : Nat} {t : Token} (h : toks[pos]? = some t) : pos < toks.length :=
  (List.getElem?_eq_some_iff.mp h).1

theorem variantAt_lt {toks : List Token} {pos : Nat} {v : TokVariant} (h : variantAt toks pos = some v) : pos < toks.length := by
  obtain ⟨t, ht, -⟩ := variantAt_some h
  exact get_lt ht

theorem consume_ranged {toks : List Token} (v : TokVariant) (what : String) {pos : Nat} {es : List ParseErr}
    (hp : pos ≤ toks.length) (he : ErrsOk toks es) (hw : (what, v) ∈ fixedExpectations ∧ what ≠ "a declaration" := by decide) : Ranged toks pos (fun _ => True) (consume toks v what pos es) := by
  unfold consume
  cases h : toks[pos]? with
  | none => exact .fail hp he ⟨⟨v, .inl hw.1⟩, fun t ht => by rw [h] at ht; cases ht⟩
  | some t =>
    dsimp only
    split
    · exact ⟨by omega, get_lt h, he, trivial⟩
    · rename_i hne
      refine .fail hp he ⟨⟨v, .inl hw.1⟩, fun t' ht hn => ?_⟩
      rw [h] at ht; cases ht
      exact hne (names_fixed hw.1 hw.2 hn)

theorem consumeIdentifier_missing {toks : List Token} {what : String} {pos : Nat} (hw : what ∈ nameExpectations)
    (h : ∀ r i, toks[pos]? = some ⟨r, .identifier i⟩ → False) : Missing toks pos what := by
  refine ⟨⟨.identifier ⟨[], []⟩, .inr (.inl ⟨hw, _, rfl⟩)⟩, fun t ht hn => ?_⟩
  obtain ⟨i, hi⟩ := names_name hw hn
  obtain ⟨r, v⟩ := t
  cases hi
  exact h r i ht

theorem consumeIdentifier_ranged {toks : List Token} (what : String) {pos : Nat} {es : List ParseErr}
    (hp : pos ≤ toks.length) (he : ErrsOk toks es) (hw : what ∈ nameExpectations := by decide) : Ranged toks pos (fun _ => True) (consumeIdentifier toks what pos es) := by
  unfold consumeIdentifier
  split
  · rename_i h; exact ⟨by omega, get_lt h, he, trivial⟩
  · rename_i h; exact .fail hp he (consumeIdentifier_missing hw h)

theorem consumeInteger_ranged {toks : List Token} {pos : Nat} {es : List ParseErr} (hp : pos ≤ toks.length) (he : ErrsOk toks es) :
    Ranged toks pos (fun _ => True) (consumeInteger toks "an index for the field" pos es) := by
  unfold consumeInteger
  split
  · rename_i h; exact ⟨by omega, get_lt h, he, trivial⟩
  · rename_i h
    refine .fail hp he ⟨⟨.integer 0, .inr (.inr (.inl ⟨rfl, _, rfl⟩))⟩, fun t ht hn => ?_⟩
    obtain ⟨i, hi⟩ := names_integer hn
    obtain ⟨r, v⟩ := t
    cases hi
    exact h r i ht

theorem consumePath_ranged {toks : List Token} {pos : Nat} {es : List ParseErr} (hp : pos ≤ toks.length) (he : ErrsOk toks es) :
    Ranged toks pos (fun _ => True) (consumePath toks "the path of a file to import" pos es) := by
  unfold consumePath
  split
  · rename_i h; exact ⟨by omega, get_lt h, he, trivial⟩
  · rename_i h
    refine .fail hp he ⟨⟨.path [], .inr (.inr (.inr ⟨rfl, _, rfl⟩))⟩, fun t ht hn => ?_⟩
    obtain ⟨i, hi⟩ := names_path hn
    obtain ⟨r, v⟩ := t
    cases hi
    exact h r i ht

abbrev TypeRanged (toks : List Token) (t : SchemaType) : Prop := ∀ r ∈ t.ranges, RangeOk toks r
abbrev FieldRanged (toks : List Token) (t : Field) : Prop := ∀ r ∈ t.ranges, RangeOk toks r
abbrev DeclRanged (toks : List Token) (t : Declaration) : Prop := ∀ r ∈ t.ranges, RangeOk toks r

theorem simple_ok {toks : List Token} {r : SourceRange} {v : TypeVariant} (h : RangeOk toks r) (hv : v.ranges = []) :
    TypeRanged toks ⟨r, v⟩ := by
  intro x hx
  simp [SchemaType.ranges, hv] at hx
  rw [hx]; exact h

theorem parseCustom_ranged {toks : List Token} {pos : Nat} {es : List ParseErr}
    (hp : pos ≤ toks.length) (he : ErrsOk toks es) : Ranged toks pos (TypeRanged toks) (parseCustom toks pos es) := by
  unfold parseCustom
  split
  · trivial
  split
  · rename_i h
    have h3 : pos + 1 + 1 ≤ toks.length := by omega
    unfold consumeIdentifier
    split
    · refine Ranged.weaken (start := pos + 1 + 1) (by omega)
        ((consumeIdentifier_ranged _ h3 he).bind fun n pos'' es'' g1 g2 g3 _ => ?_)
      exact ⟨Nat.le_refl _, g2, g3, simple_ok (spanTokens_ranged (by omega) g2) rfl⟩
    · rename_i h; exact .fail hp he (consumeIdentifier_missing (by decide) h)
  · refine (consumeIdentifier_ranged _ hp he).bind fun n pos' es' h1 h2 h3 _ => ?_
    exact ⟨Nat.le_refl _, h2, h3, simple_ok (spanTokens_ranged (by omega) h2) rfl⟩

theorem parseType_ranged {toks : List Token} : ∀ (fuel pos : Nat) (es : List ParseErr), pos ≤ toks.length → ErrsOk toks es →
    Ranged toks pos (TypeRanged toks) (parseType toks fuel pos es)
  | 0, _, _, _, _ => by rw [parseType]; trivial
  | fuel + 1, pos, es, hp, he => by
    unfold parseType
    split
    · rename_i h; exact .fail hp he (missing_type h)
    · rename_i h
      refine Ranged.weaken (Nat.le_succ _)
        ((parseType_ranged fuel (pos + 1) es (variantAt_lt h) he).bind fun inner p1 e1 h1 h2 h3 h4 => ?_)
      refine (consume_ranged _ _ h2 h3).bind fun _ p2 e2 g1 g2 g3 _ => ⟨Nat.le_refl _, g2, g3, ?_⟩
      intro r hr
      rcases List.mem_cons.mp hr with rfl | hr
      · exact spanTokens_ranged (by omega) g2
      · exact h4 r hr
    · rename_i v hne h
      cases hk : keywordType? v with
      | none => exact parseCustom_ranged hp he
      | some ty =>
        refine ⟨Nat.le_succ _, variantAt_lt h, he, simple_ok (spanTokens_ranged (by omega) (variantAt_lt h)) ?_⟩
        cases v <;> simp [keywordType?] at hk <;> subst hk <;> rfl

theorem parseComment_ranged {toks : List Token} {pos : Nat} (hp : pos ≤ toks.length) :
    pos ≤ (parseComment toks pos).2 ∧ (parseComment toks pos).2 ≤ toks.length := by
  unfold parseComment
  split
  · rename_i h; exact ⟨Nat.le_succ _, variantAt_lt h⟩
  · exact ⟨Nat.le_refl _, hp⟩

theorem parseRule_ranged {toks : List Token} {pos : Nat} (hp : pos ≤ toks.length) :
    pos ≤ (parseRule toks pos).2 ∧ (parseRule toks pos).2 ≤ toks.length := by
  unfold parseRule
  split
  · rename_i h; exact ⟨Nat.le_succ _, variantAt_lt h⟩
  · rename_i h; exact ⟨Nat.le_succ _, variantAt_lt h⟩
  · exact ⟨Nat.le_refl _, hp⟩

theorem parseFieldType_ranged {toks : List Token} {pos : Nat} {es : List ParseErr}
    (hp : pos ≤ toks.length) (he : ErrsOk toks es) : Ranged toks pos (TypeRanged toks) (parseFieldType toks pos es) := by
  unfold parseFieldType
  split
  · refine (consume_ranged _ _ hp he).bind fun _ p1 e1 h1 h2 h3 _ => ?_
    split
    · rename_i h; exact .fail h2 h3 (missing_type h)
    · exact parseType_ranged _ _ _ h2 h3
  · exact ⟨Nat.le_refl _, hp, he, simple_ok (spanTokens_ranged (Nat.le_refl _) hp) rfl⟩

theorem parseField_ranged {toks : List Token} {pos : Nat} {es : List ParseErr}
    (hp : pos ≤ toks.length) (he : ErrsOk toks es) : Ranged toks pos (FieldRanged toks) (parseField toks pos es) := by
  unfold parseField
  obtain ⟨a1, a2⟩ := parseComment_ranged hp
  generalize parseComment toks pos = pc at a1 a2
  obtain ⟨c, p⟩ := pc
  dsimp only at a1 a2 ⊢
  obtain ⟨b1, b2⟩ := parseRule_ranged a2
  generalize parseRule toks p = pr at b1 b2
  obtain ⟨ru, q⟩ := pr
  dsimp only at b1 b2 ⊢
  refine Ranged.weaken (Nat.le_trans a1 b1) ((consumeIdentifier_ranged _ b2 he).bind fun name p1 e1 h1 h2 h3 _ => ?_)
  refine (parseFieldType_ranged h2 h3).bind fun ty p2 e2 i1 i2 i3 i4 => ?_
  refine (consume_ranged _ _ i2 i3).bind fun _ p3 e3 j1 j2 j3 _ => ?_
  refine (consumeInteger_ranged j2 j3).bind fun ix p4 e4 k1 k2 k3 _ => ⟨Nat.le_refl _, k2, k3, ?_⟩
  intro r hr
  rcases List.mem_cons.mp hr with rfl | hr
  · exact spanTokens_ranged (by omega) k2
  · exact i4 r hr

theorem parseImport_ranged {T : CharTable} {toks : List Token} {pos : Nat} {es : List ParseErr}
    (hp : pos ≤ toks.length) (he : ErrsOk toks es) :
    Ranged toks pos (fun p => RangeOk toks p.2.sourceRange) (parseImport T toks pos es) := by
  unfold parseImport
  refine (consume_ranged _ _ hp he).bind fun _ p1 e1 h1 h2 h3 _ => ?_
  refine (consumePath_ranged h2 h3).bind fun path p2 e2 i1 i2 i3 _ => ?_
  split
  · refine (consume_ranged _ _ i2 i3).bind fun _ p3 e3 j1 j2 j3 _ => ?_
    refine (consumeIdentifier_ranged _ j2 j3).bind fun name p4 e4 k1 k2 k3 _ => ⟨Nat.le_refl _, k2, k3, ?_⟩
    exact spanTokens_ranged (by omega) k2
  · have hr : RangeOk toks (spanTokens toks pos p2) := spanTokens_ranged (by omega) i2
    split
    · exact ⟨Nat.le_refl _, i2, i3, hr⟩
    · exact ⟨Nat.le_refl _, i2, i3.snoc hr, hr⟩

theorem insertImport_ranged {toks : List Token} {name : Identifier} {imp : Import} (hi : RangeOk toks imp.sourceRange) :
    ∀ l : List (Identifier × Import), (∀ p ∈ l, RangeOk toks p.2.sourceRange) →
    ∀ p ∈ (insertImport name imp l).1, RangeOk toks p.2.sourceRange
  | [], _, p, hp => by simp [insertImport] at hp; rw [hp]; exact hi
  | (n, i) :: l, h, p, hp => by
    unfold insertImport at hp
    split at hp
    · rcases List.mem_cons.mp hp with rfl | hp
      · exact hi
      · exact h p (List.mem_cons_of_mem _ hp)
    split at hp
    · rcases List.mem_cons.mp hp with rfl | hp
      · exact hi
      · exact h p hp
    · have ih := insertImport_ranged (name := name) hi l (fun p hp => h p (List.mem_cons_of_mem _ hp))
      dsimp only at hp
      rcases List.mem_cons.mp hp with rfl | hp
      · exact h _ (List.mem_cons_self ..)
      · exact ih p hp

theorem parseImports_ranged {T : CharTable} {toks : List Token} : ∀ (fuel : Nat) (imports : List (Identifier × Import))
    (pos : Nat) (es : List ParseErr), pos ≤ toks.length → ErrsOk toks es → (∀ p ∈ imports, RangeOk toks p.2.sourceRange) →
    Ranged toks pos (fun l => ∀ p ∈ l, RangeOk toks p.2.sourceRange) (parseImports T toks fuel imports pos es)
  | 0, _, _, _, _, _, _ => by rw [parseImports]; trivial
  | fuel + 1, imports, pos, es, hp, he, hi => by
    unfold parseImports
    split
    · have h := parseImport_ranged (T := T) hp he
      generalize parseImport T toks pos es = r at h
      cases r with
      | panic => trivial
      | none p1 e1 => exact (parseImports_ranged fuel imports p1 e1 h.2.1 h.2.2 hi).weaken h.1
      | some a p1 e1 =>
        obtain ⟨name, imp⟩ := a
        obtain ⟨h1, h2, h3, h4⟩ := h
        dsimp only at h4 ⊢
        have h5 := insertImport_ranged (name := name) h4 imports hi
        refine (parseImports_ranged fuel _ p1 _ h2 ?_ h5).weaken h1
        split
        · exact h3.snoc h4
        · exact h3
    · exact ⟨Nat.le_refl _, hp, he, hi⟩

theorem skipToCurly_ranged {toks : List Token} : ∀ (fuel pos : Nat), pos ≤ toks.length →
    pos ≤ skipToCurly toks fuel pos ∧ skipToCurly toks fuel pos ≤ toks.length
  | 0, pos, hp => by rw [skipToCurly]; exact ⟨Nat.le_refl _, hp⟩
  | fuel + 1, pos, hp => by
    unfold skipToCurly
    split
    · exact ⟨Nat.le_refl _, hp⟩
    · exact ⟨Nat.le_refl _, hp⟩
    · rename_i h
      have := skipToCurly_ranged fuel (pos + 1) (variantAt_lt h)
      exact ⟨by omega, this.2⟩

theorem parseFields_ranged {toks : List Token} : ∀ (fuel : Nat) (fields : List Field)
    (pos : Nat) (es : List ParseErr), pos ≤ toks.length → ErrsOk toks es → (∀ f ∈ fields, FieldRanged toks f) →
    Ranged toks pos (fun l => ∀ f ∈ l, FieldRanged toks f) (parseFields toks fuel fields pos es)
  | 0, _, _, _, _, _, _ => by rw [parseFields]; trivial
  | fuel + 1, fields, pos, es, hp, he, hf => by
    unfold parseFields
    split
    · exact ⟨Nat.le_refl _, hp, he, hf⟩
    · exact ⟨Nat.le_refl _, hp, he, hf⟩
    · exact ⟨Nat.le_refl _, hp, he, hf⟩
    · have h := parseField_ranged hp he
      generalize parseField toks pos es = r at h
      cases r with
      | panic => trivial
      | none p1 e1 =>
        have := skipToCurly_ranged (toks := toks) toks.length p1 h.2.1
        have h1 := h.1
        exact ⟨by omega, this.2, h.2.2, hf⟩
      | some f p1 e1 =>
        obtain ⟨h1, h2, h3, h4⟩ := h
        refine (parseFields_ranged fuel _ p1 e1 h2 h3 ?_).weaken h1
        intro g hg
        rcases List.mem_append.mp hg with hg | hg
        · exact hf g hg
        · rw [List.mem_singleton.mp hg]; exact h4

theorem parseIndices_ranged {toks : List Token} : ∀ (fuel : Nat) (deleted : List Nat)
    (pos : Nat) (es : List ParseErr), pos ≤ toks.length → ErrsOk toks es →
    Ranged toks pos (fun _ => True) (parseIndices toks fuel deleted pos es)
  | 0, _, _, _, _, _ => by rw [parseIndices]; trivial
  | fuel + 1, deleted, pos, es, hp, he => by
    unfold parseIndices
    split
    · rename_i n h
      dsimp only
      refine (parseIndices_ranged fuel _ (pos + 1) _ (variantAt_lt h) ?_).weaken (Nat.le_succ _)
      split
      · exact he.snoc (tokenSourceRange_ok _ _)
      · exact he
    · exact ⟨Nat.le_refl _, hp, he, trivial⟩

theorem parseDeleted_ranged {toks : List Token} {pos : Nat} {es : List ParseErr}
    (hp : pos ≤ toks.length) (he : ErrsOk toks es) : Ranged toks pos (fun _ => True) (parseDeleted toks pos es) := by
  unfold parseDeleted
  split
  · rename_i h
    exact (parseIndices_ranged _ _ _ _ (variantAt_lt h) he).weaken (Nat.le_succ _)
  · exact ⟨Nat.le_refl _, hp, he, trivial⟩

theorem parseKeyword_ranged {toks : List Token} {pos : Nat} {es : List ParseErr}
    (hp : pos ≤ toks.length) (he : ErrsOk toks es) : Ranged toks pos (fun _ => True) (parseKeyword toks pos es) := by
  unfold parseKeyword
  split
  · trivial
  · rename_i h; exact ⟨Nat.le_succ _, variantAt_lt h, he, trivial⟩
  · rename_i h; exact ⟨Nat.le_succ _, variantAt_lt h, he, trivial⟩
  · rename_i v h1 h2 h
    refine .fail hp he ⟨⟨.struct, .inl (by decide)⟩, fun t ht hn => ?_⟩
    have hv : v = t.variant := by simpa [variantAt, ht, eq_comm] using h
    rcases names_declaration hn with hn | hn
    · exact h1 (hv.trans hn)
    · exact h2 (hv.trans hn)

theorem parseDeclaration_ranged {toks : List Token} {pos : Nat} {es : List ParseErr}
    (hp : pos ≤ toks.length) (he : ErrsOk toks es) : Ranged toks pos (DeclRanged toks) (parseDeclaration toks pos es) := by
  unfold parseDeclaration
  obtain ⟨a1, a2⟩ := parseComment_ranged hp
  generalize parseComment toks pos = pc at a1 a2
  obtain ⟨c, p⟩ := pc
  dsimp only at a1 a2 ⊢
  refine Ranged.weaken a1 ((parseKeyword_ranged a2 he).bind fun kw p1 e1 h1 h2 h3 _ => ?_)
  refine (consumeIdentifier_ranged _ h2 h3 (by cases kw <;> decide)).bind fun name p2 e2 i1 i2 i3 _ => ?_
  refine (consume_ranged _ _ i2 i3).bind fun _ p3 e3 j1 j2 j3 _ => ?_
  refine (parseFields_ranged _ [] p3 e3 j2 j3 (by simp)).bind fun fields p4 e4 k1 k2 k3 k4 => ?_
  refine (parseDeleted_ranged k2 k3).bind fun _ p5 e5 l1 l2 l3 _ => ?_
  refine (consume_ranged _ _ l2 l3).bind fun _ p6 e6 m1 m2 m3 _ => ⟨Nat.le_refl _, m2, m3, ?_⟩
  intro r hr
  rcases List.mem_cons.mp hr with rfl | hr
  · exact spanTokens_ranged (by omega) m2
  · obtain ⟨f, hf, hr⟩ := List.mem_flatMap.mp hr
    exact k4 f hf r hr

theorem parseDeclarations_ranged {toks : List Token} : ∀ (fuel : Nat) (ds : List Declaration)
    (pos : Nat) (es : List ParseErr), pos ≤ toks.length → ErrsOk toks es → (∀ d ∈ ds, DeclRanged toks d) →
    Ranged toks pos (fun l => ∀ d ∈ l, DeclRanged toks d) (parseDeclarations toks fuel ds pos es)
  | 0, _, _, _, _, _, _ => by rw [parseDeclarations]; trivial
  | fuel + 1, ds, pos, es, hp, he, hd => by
    unfold parseDeclarations
    split
    · have h := parseDeclaration_ranged hp he
      generalize parseDeclaration toks pos es = r at h
      cases r with
      | panic => trivial
      | none p1 e1 => exact ⟨h.1, h.2.1, h.2.2, hd⟩
      | some d p1 e1 =>
        obtain ⟨h1, h2, h3, h4⟩ := h
        refine (parseDeclarations_ranged fuel _ p1 e1 h2 h3 ?_).weaken h1
        intro g hg
        rcases List.mem_append.mp hg with hg | hg
        · exact hd g hg
        · rw [List.mem_singleton.mp hg]; exact h4
    · exact ⟨Nat.le_refl _, hp, he, hd⟩

theorem parseSchema_ranged (T : CharTable) (toks : List Token) :
    Ranged toks 0 (fun s => ∀ r ∈ s.ranges, RangeOk toks r) (parseSchema T toks) := by
  unfold parseSchema
  obtain ⟨c, rest, hc1, hc2, -⟩ := parseSchemaComment_spec toks
  generalize parseSchemaComment toks = pc at hc2
  obtain ⟨comment, p⟩ := pc
  dsimp only at hc2 ⊢
  have hpos : p ≤ toks.length := by rw [hc1, hc2]; simp
  refine Ranged.weaken (Nat.zero_le p)
    ((parseImports_ranged _ [] p [] hpos (fun e he => by simp at he) (by simp)).bind fun imports p1 e1 h1 h2 h3 h4 => ?_)
  refine (parseDeclarations_ranged _ [] p1 e1 h2 h3 (by simp)).bind fun ds p2 e2 i1 i2 i3 i4 => ⟨Nat.le_refl _, i2, i3, ?_⟩
  intro r hr
  rcases List.mem_append.mp hr with hr | hr
  · obtain ⟨q, hq, rfl⟩ := List.mem_map.mp hr
    exact h4 q hq
  · obtain ⟨d, hd, hr⟩ := List.mem_flatMap.mp hr
    exact i4 d hd r hr

/-- If the parser stops, it has found an error. -/
def Loud {α : Type} : PRes α → Prop
  | .none _ es => es ≠ []
  | _ => True

theorem Loud.bind {α β : Type} {r : PRes α} {k : α → Nat → List ParseErr → PRes β} (h : Loud r)
    (hk : ∀ a pos es, Loud (k a pos es)) : Loud (r.bind k) := by
  cases r with
  | panic => trivial
  | none pos es => exact h
  | some a pos es => exact hk a pos es

theorem consume_loud (toks : List Token) (v : TokVariant) (what : String) (pos : Nat) (es : List ParseErr) :
    Loud (consume toks v what pos es) := by
  unfold consume
  split
  · split
    · trivial
    · simp [Loud]
  · simp [Loud]

theorem consumeIdentifier_loud (toks : List Token) (what : String) (pos : Nat) (es : List ParseErr) :
    Loud (consumeIdentifier toks what pos es) := by
  unfold consumeIdentifier
  split
  · trivial
  · simp [Loud]

theorem parseFields_loud (toks : List Token) : ∀ (fuel : Nat) (fields : List Field) (pos : Nat) (es : List ParseErr),
    Loud (parseFields toks fuel fields pos es)
  | 0, _, _, _ => by rw [parseFields]; trivial
  | fuel + 1, fields, pos, es => by
    unfold parseFields
    split
    · trivial
    · trivial
    · trivial
    · split
      · trivial
      · exact parseFields_loud toks fuel _ _ _
      · trivial

theorem parseIndices_loud (toks : List Token) : ∀ (fuel : Nat) (deleted : List Nat) (pos : Nat) (es : List ParseErr),
    Loud (parseIndices toks fuel deleted pos es)
  | 0, _, _, _ => by rw [parseIndices]; trivial
  | fuel + 1, deleted, pos, es => by
    unfold parseIndices
    split
    · exact parseIndices_loud toks fuel _ _ _
    · trivial

theorem parseDeclaration_loud (toks : List Token) (pos : Nat) (es : List ParseErr) : Loud (parseDeclaration toks pos es) := by
  unfold parseDeclaration
  refine Loud.bind ?_ fun _ _ _ => (consumeIdentifier_loud _ _ _ _).bind fun _ _ _ => (consume_loud _ _ _ _ _).bind fun _ _ _ =>
    (parseFields_loud _ _ _ _ _).bind fun _ _ _ => Loud.bind ?_ fun _ _ _ => (consume_loud _ _ _ _ _).bind fun _ _ _ => trivial
  · unfold parseKeyword
    split
    · trivial
    · trivial
    · trivial
    · simp [Loud]
  · unfold parseDeleted
    split
    · exact parseIndices_loud _ _ _ _ _
    · trivial

/-- The parser stops at the end of the tokens or after an error. -/
theorem parseDeclarations_end (toks : List Token) : ∀ (fuel : Nat) (ds : List Declaration) (pos : Nat) (es : List ParseErr) {ds' pos' es'},
    parseDeclarations toks fuel ds pos es = .some ds' pos' es' → es' ≠ [] ∨ toks.length ≤ pos'
  | 0, _, _, _, _, _, _, h => by rw [parseDeclarations] at h; cases h
  | fuel + 1, ds, pos, es, ds', pos', es', h => by
    unfold parseDeclarations at h
    split at h
    · have hl := parseDeclaration_loud toks pos es
      generalize parseDeclaration toks pos es = r at h hl
      cases r with
      | panic => cases h
      | none p e => cases h; exact .inl hl
      | some d p e => exact parseDeclarations_end toks fuel _ _ _ h
    · cases h; right; omega

theorem parseSchema_end {T : CharTable} {toks : List Token} {s : Schema} {pos : Nat} {es : List ParseErr}
    (h : parseSchema T toks = .some s pos es) : es ≠ [] ∨ toks.length ≤ pos := by
  unfold parseSchema at h
  generalize parseSchemaComment toks = pc at h
  obtain ⟨comment, p⟩ := pc
  dsimp only at h
  generalize parseImports T toks (toks.length + 1) [] p [] = r at h
  cases r with
  | panic => cases h
  | none p e => cases h
  | some imports p e =>
    dsimp only [PRes.bind] at h
    generalize hd : parseDeclarations toks (toks.length + 1) [] p e = r at h
    cases r with
    | panic => cases h
    | none p e => cases h
    | some ds p e =>
      cases h
      exact parseDeclarations_end toks _ _ _ _ hd

theorem parse_errors_ok {T : CharTable} {toks : List Token} {es : List ParseErr} (h : parse T toks = .err es) :
    ErrsOk toks es := by
  unfold parse at h
  have hr := parseSchema_ranged T toks
  have hend := @parseSchema_end T toks
  generalize parseSchema T toks = r at h hr hend
  cases r with
  | panic => cases h
  | none pos errors => cases h; exact hr.2.2
  | some s pos errors =>
    dsimp only at h
    by_cases hc : errors.isEmpty ∧ pos ≠ toks.length
    · rw [if_pos hc] at h
      have h1 := hr.2.1
      rcases hend rfl with h2 | h2
      · exact absurd (List.isEmpty_iff.mp hc.1) h2
      · exact absurd (Nat.le_antisymm h1 h2) hc.2
    · rw [if_neg hc] at h
      split at h
      · cases h
      · cases h; exact hr.2.2.1

theorem parse_schema_ok {T : CharTable} {toks : List Token} {s : Schema} (h : parse T toks = .ok s) :
    ∀ r ∈ s.ranges, RangeOk toks r := by
  unfold parse at h
  have hr := parseSchema_ranged T toks
  generalize parseSchema T toks = r at h hr
  cases r with
  | panic => cases h
  | none pos errors => cases h
  | some s pos errors =>
    dsimp only at h
    by_cases hc : errors.isEmpty ∧ pos ≠ toks.length
    · rw [if_pos hc] at h; simp at h
    · rw [if_neg hc] at h
      split at h
      · cases h; exact hr.2.2.2
      · cases h

end Typical
