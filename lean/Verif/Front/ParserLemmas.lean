import Verif.Spec.Grammar

/-!
# Lemmas about the parser: soundness and absence of panics
-/

namespace Typical

/-! ## Positions -/

theorem drop_cons {toks : List Token} {pos : Nat} {t : Token} {rest : List Token} (h : toks.drop pos = t :: rest) :
    toks[pos]? = some t ∧ toks.drop (pos + 1) = rest ∧ pos < toks.length := by
  have h1 : toks[pos]? = some t := by
    have := congrArg (fun l => l[0]?) h
    simpa using this
  have h2 : pos < toks.length := by
    apply Classical.byContradiction
    intro hn
    rw [List.drop_eq_nil_of_le (by omega)] at h
    cases h
  refine ⟨h1, ?_, h2⟩
  have : toks.drop (pos + 1) = (toks.drop pos).drop 1 := by rw [List.drop_drop]
  rw [this, h]; rfl

theorem drop_of_get {toks : List Token} {pos : Nat} {t : Token} (h : toks[pos]? = some t) :
    toks.drop pos = t :: toks.drop (pos + 1) := by
  obtain ⟨hlt, he⟩ := List.getElem?_eq_some_iff.mp h
  rw [List.drop_eq_getElem_cons hlt, he]

theorem drop_append {toks ts rest : List Token} {pos : Nat} (h : toks.drop pos = ts ++ rest) :
    toks.drop (pos + ts.length) = rest := by
  rw [← List.drop_drop, h]; simp

theorem drop_length {toks ts rest : List Token} {pos : Nat} (h : toks.drop pos = ts ++ rest) (hp : pos ≤ toks.length) :
    pos + ts.length ≤ toks.length := by
  have := congrArg List.length h
  simp at this; omega

theorem variantAt_some {toks : List Token} {pos : Nat} {v : TokVariant} (h : variantAt toks pos = some v) :
    ∃ t, toks[pos]? = some t ∧ t.variant = v := by
  simpa [variantAt] using h

theorem variantAt_none {toks : List Token} {pos : Nat} (h : variantAt toks pos = none) : toks.length ≤ pos := by
  simpa [variantAt] using h

theorem variantAt_of_get {toks : List Token} {pos : Nat} {t : Token} (h : toks[pos]? = some t) :
    variantAt toks pos = some t.variant := by simp [variantAt, h]

theorem spanTokens_eq {toks ts rest : List Token} {pos : Nat} (h : toks.drop pos = ts ++ rest) (hne : ts ≠ []) :
    spanTokens toks pos (pos + ts.length) = span ts := by
  obtain ⟨a, us, rfl⟩ : ∃ a us, ts = a :: us := by
    cases ts with
    | nil => exact absurd rfl hne
    | cons a us => exact ⟨a, us, rfl⟩
  obtain ⟨h1, -, h2⟩ := drop_cons h
  have hlast : toks[pos + (a :: us).length - 1]? = (a :: us).getLast? := by
    have e : pos + (a :: us).length - 1 = pos + us.length := by simp
    rw [e, ← List.getElem?_drop, h, List.getLast?_eq_getElem?]
    have hl : us.length < (a :: us).length := by simp
    rw [List.getElem?_append_left hl]
    simp
  obtain ⟨b, hb⟩ : ∃ b, (a :: us).getLast? = some b := by
    cases hb : (a :: us).getLast? with
    | none => simp at hb
    | some b => exact ⟨b, rfl⟩
  rw [hb] at hlast
  unfold spanTokens
  rw [if_neg (by omega), if_neg (by simp)]
  unfold tokenSourceRange span
  rw [h1, hlast, hb]
  rfl

/-! ## What the parsing functions do -/

/-- No panic; the position does not leave the tokens; errors are only added, and at least one when there is no result; the
consumed tokens, the result and the errors are related by `G`. -/
def PResSpec {α : Type} (toks : List Token) (pos : Nat) (errors : List ParseErr)
    (G : List Token → α → List ParseErr → Prop) : PRes α → Prop
  | .panic => False
  | .none pos' errors' => pos ≤ pos' ∧ pos' ≤ toks.length ∧ ∃ e more, errors' = errors ++ e :: more
  | .some a pos' errors' => pos' ≤ toks.length ∧ (∃ more, errors' = errors ++ more) ∧
    ∃ ts rest, toks.drop pos = ts ++ rest ∧ pos' = pos + ts.length ∧ G ts a errors'

/-- A result without new errors. -/
def Exact {α : Type} (errors : List ParseErr) (G : List Token → α → Prop) (ts : List Token) (a : α)
    (errors' : List ParseErr) : Prop := errors' = errors ∧ G ts a

/-- A result, which is as specified if there are no new errors. -/
def Cond {α : Type} (errors : List ParseErr) (G : List Token → α → Prop) (ts : List Token) (a : α)
    (errors' : List ParseErr) : Prop := errors' = errors → G ts a

theorem consume_spec {toks : List Token} {v : TokVariant} {what : String} {pos : Nat} {errors : List ParseErr}
    (hp : pos ≤ toks.length) :
    PResSpec toks pos errors (Exact errors fun ts _ => ∃ t, ts = [t] ∧ t.variant = v) (consume toks v what pos errors) := by
  unfold consume
  cases h : toks[pos]? with
  | none => exact ⟨Nat.le_refl _, hp, _, [], rfl⟩
  | some t =>
    dsimp only
    obtain ⟨hlt, -⟩ := List.getElem?_eq_some_iff.mp h
    split
    · rename_i hv
      exact ⟨hlt, ⟨[], by simp⟩, [t], _, drop_of_get h, rfl, rfl, ⟨t, rfl, hv⟩⟩
    · exact ⟨Nat.le_refl _, hp, _, [], rfl⟩

theorem consumeIdentifier_spec {toks : List Token} {what : String} {pos : Nat} {errors : List ParseErr}
    (hp : pos ≤ toks.length) :
    PResSpec toks pos errors (Exact errors fun ts n => ∃ t, ts = [t] ∧ t.variant = .identifier n)
      (consumeIdentifier toks what pos errors) := by
  unfold consumeIdentifier
  split
  · rename_i r i h
    obtain ⟨hlt, -⟩ := List.getElem?_eq_some_iff.mp h
    exact ⟨hlt, ⟨[], by simp⟩, [_], _, drop_of_get h, rfl, rfl, ⟨_, rfl, rfl⟩⟩
  · exact ⟨Nat.le_refl _, hp, _, [], rfl⟩

theorem consumeInteger_spec {toks : List Token} {what : String} {pos : Nat} {errors : List ParseErr}
    (hp : pos ≤ toks.length) :
    PResSpec toks pos errors (Exact errors fun ts n => ∃ t, ts = [t] ∧ t.variant = .integer n)
      (consumeInteger toks what pos errors) := by
  unfold consumeInteger
  split
  · rename_i r i h
    obtain ⟨hlt, -⟩ := List.getElem?_eq_some_iff.mp h
    exact ⟨hlt, ⟨[], by simp⟩, [_], _, drop_of_get h, rfl, rfl, ⟨_, rfl, rfl⟩⟩
  · exact ⟨Nat.le_refl _, hp, _, [], rfl⟩

theorem consumePath_spec {toks : List Token} {what : String} {pos : Nat} {errors : List ParseErr}
    (hp : pos ≤ toks.length) :
    PResSpec toks pos errors (Exact errors fun ts p => ∃ t, ts = [t] ∧ t.variant = .path p)
      (consumePath toks what pos errors) := by
  unfold consumePath
  split
  · rename_i r i h
    obtain ⟨hlt, -⟩ := List.getElem?_eq_some_iff.mp h
    exact ⟨hlt, ⟨[], by simp⟩, [_], _, drop_of_get h, rfl, rfl, ⟨_, rfl, rfl⟩⟩
  · exact ⟨Nat.le_refl _, hp, _, [], rfl⟩

/-- A step which consumes `ts`, then `r`. -/
theorem PResSpec.after {β : Type} {toks : List Token} {pos pos' : Nat} {errors errors' : List ParseErr}
    {H : List Token → β → List ParseErr → Prop} {ts rest : List Token} {r : PRes β}
    (hd : toks.drop pos = ts ++ rest) (hpos : pos' = pos + ts.length) (he : ∃ more, errors' = errors ++ more)
    (hr : PResSpec toks pos' errors' (fun us b e => H (ts ++ us) b e) r) : PResSpec toks pos errors H r := by
  subst hpos
  obtain ⟨more, h2⟩ := he
  cases r with
  | panic => exact hr
  | none pos'' errors'' =>
    obtain ⟨g1, g2, e, more', g3⟩ := hr
    refine ⟨by omega, g2, ?_⟩
    cases more with
    | nil => exact ⟨e, more', by rw [g3, h2]; simp⟩
    | cons e' more => exact ⟨e', more ++ e :: more', by rw [g3, h2]; simp⟩
  | some b pos'' errors'' =>
    obtain ⟨g1, ⟨more', g2⟩, us, rest', g3, g4, g5⟩ := hr
    refine ⟨g1, ⟨more ++ more', by rw [g2, h2]; simp⟩, ts ++ us, rest', ?_, ?_, g5⟩
    · have := drop_append hd
      rw [this] at g3
      rw [hd, g3]; simp
    · rw [g4]; simp; omega

/-- A step which consumes `ts` without errors, then `r`. -/
theorem PResSpec.afterSame {β : Type} {toks : List Token} {pos pos' : Nat} {errors : List ParseErr}
    {H : List Token → β → List ParseErr → Prop} {ts rest : List Token} {r : PRes β}
    (hd : toks.drop pos = ts ++ rest) (hpos : pos' = pos + ts.length)
    (hr : PResSpec toks pos' errors (fun us b e => H (ts ++ us) b e) r) : PResSpec toks pos errors H r :=
  PResSpec.after hd hpos ⟨[], by simp⟩ hr

/-- Sequencing. The continuation knows what has been consumed. -/
theorem PResSpec.bind {α β : Type} {toks : List Token} {pos : Nat} {errors : List ParseErr}
    {G : List Token → α → List ParseErr → Prop}
    {H : List Token → β → List ParseErr → Prop} {r : PRes α} {k : α → Nat → List ParseErr → PRes β}
    (hr : PResSpec toks pos errors G r)
    (hk : ∀ a ts rest errors', toks.drop pos = ts ++ rest → pos + ts.length ≤ toks.length →
      (∃ more, errors' = errors ++ more) → G ts a errors' →
      PResSpec toks (pos + ts.length) errors' (fun us b e => H (ts ++ us) b e) (k a (pos + ts.length) errors')) :
    PResSpec toks pos errors H (r.bind k) := by
  cases r with
  | panic => exact hr
  | none pos' errors' => exact hr
  | some a pos' errors' =>
    obtain ⟨h1, h2, ts, rest, h3, h4, h5⟩ := hr
    subst h4
    exact PResSpec.after h3 rfl h2 (hk a ts rest errors' h3 h1 h2 h5)

/-- Sequencing after a step without new errors. -/
theorem PResSpec.bindExact {α β : Type} {toks : List Token} {pos : Nat} {errors : List ParseErr}
    {G : List Token → α → Prop}
    {H : List Token → β → List ParseErr → Prop} {r : PRes α} {k : α → Nat → List ParseErr → PRes β}
    (hr : PResSpec toks pos errors (Exact errors G) r)
    (hk : ∀ a ts rest, toks.drop pos = ts ++ rest → pos + ts.length ≤ toks.length → G ts a →
      PResSpec toks (pos + ts.length) errors (fun us b e => H (ts ++ us) b e) (k a (pos + ts.length) errors)) :
    PResSpec toks pos errors H (r.bind k) := by
  refine PResSpec.bind hr ?_
  intro a ts rest errors' h1 h2 h3 h4
  obtain ⟨rfl, h4⟩ := h4
  exact hk a ts rest h1 h2 h4

/-- The end of a sequence. -/
theorem PResSpec.pure {α : Type} {toks : List Token} {pos : Nat} {errors : List ParseErr}
    {G : List Token → α → List ParseErr → Prop}
    {a : α} (hp : pos ≤ toks.length) (h : G [] a errors) : PResSpec toks pos errors G (.some a pos errors) :=
  ⟨hp, ⟨[], by simp⟩, [], toks.drop pos, rfl, rfl, h⟩

theorem PResSpec.mono {α : Type} {toks : List Token} {pos : Nat} {errors : List ParseErr}
    {G H : List Token → α → List ParseErr → Prop}
    {r : PRes α} (hr : PResSpec toks pos errors G r)
    (h : ∀ ts rest a e, toks.drop pos = ts ++ rest → (∃ more, e = errors ++ more) → G ts a e → H ts a e) :
    PResSpec toks pos errors H r := by
  cases r with
  | panic => exact hr
  | none pos' errors' => exact hr
  | some a pos' errors' =>
    obtain ⟨h1, h2, ts, rest, h3, h4, h5⟩ := hr
    exact ⟨h1, h2, ts, rest, h3, h4, h ts rest a _ h3 h2 h5⟩

theorem keywordType?_iff (v : TokVariant) (ty : TypeVariant) : keywordType? v = some ty ↔ (v, ty) ∈ keywordTypes := by
  constructor
  · intro h
    cases v <;> simp [keywordType?] at h <;> subst h <;> simp [keywordTypes]
  · intro h
    simp only [keywordTypes, List.mem_cons, Prod.mk.injEq, List.not_mem_nil, or_false] at h
    rcases h with ⟨rfl, rfl⟩ | ⟨rfl, rfl⟩ | ⟨rfl, rfl⟩ | ⟨rfl, rfl⟩ | ⟨rfl, rfl⟩ | ⟨rfl, rfl⟩ | ⟨rfl, rfl⟩ <;> rfl

theorem consumeIdentifier_some {toks : List Token} {what : String} {pos : Nat} {errors : List ParseErr} {t : Token}
    {n : Identifier} (h : toks[pos]? = some t) (hv : t.variant = .identifier n) :
    consumeIdentifier toks what pos errors = .some n (pos + 1) errors := by
  obtain ⟨r, v⟩ := t
  dsimp only at hv
  subst hv
  unfold consumeIdentifier
  rw [h]

theorem consumeIdentifier_none {toks : List Token} {what : String} {pos : Nat} {errors : List ParseErr}
    (h : ∀ t n, toks[pos]? = some t → t.variant ≠ .identifier n) :
    consumeIdentifier toks what pos errors = .none pos (errors ++ [unexpectedToken toks pos what]) := by
  unfold consumeIdentifier
  split
  · rename_i r i h1
    exact absurd rfl (h _ i h1)
  · rfl

theorem parseCustom_spec {toks : List Token} {pos : Nat} {errors : List ParseErr} (hp : pos ≤ toks.length)
    (hl : 2 ≤ toks.length) : PResSpec toks pos errors (Exact errors TypeSyntax) (parseCustom toks pos errors) := by
  unfold parseCustom
  rw [if_neg (by omega)]
  split
  · rename_i hc
    obtain ⟨hlt, hdot⟩ := hc
    obtain ⟨d, hd, hdv⟩ := variantAt_some hdot
    have ha : toks[pos]? = some toks[pos] := List.getElem?_eq_getElem (by omega)
    have ht : toks[pos + 1 + 1]? = some toks[pos + 1 + 1] := List.getElem?_eq_getElem (by omega)
    generalize toks[pos] = a at ha
    generalize toks[pos + 1 + 1] = t at ht
    by_cases h1 : ∃ m, a.variant = .identifier m
    · obtain ⟨m, hm⟩ := h1
      rw [consumeIdentifier_some ha hm]
      dsimp only [PRes.bind]
      by_cases h2 : ∃ n, t.variant = .identifier n
      · obtain ⟨n, hn⟩ := h2
        rw [consumeIdentifier_some ht hn]
        dsimp only
        have e : toks.drop pos = [a, d, t] ++ toks.drop (pos + 1 + 1 + 1) := by
          rw [drop_of_get ha, drop_of_get hd, drop_of_get ht]; rfl
        refine ⟨by omega, ⟨[], by simp⟩, [a, d, t], _, e, rfl, rfl, ?_⟩
        have := spanTokens_eq e (by simp)
        have e2 : pos + [a, d, t].length = pos + 1 + 1 + 1 := rfl
        rw [e2] at this
        rw [this]
        exact .qualified hm hdv hn
      · rw [consumeIdentifier_none (by intro t' n h3 h4; rw [ht] at h3; cases h3; exact h2 ⟨n, h4⟩)]
        exact ⟨by omega, by omega, _, [], rfl⟩
    · rw [consumeIdentifier_none (by intro t' n h3 h4; rw [ha] at h3; cases h3; exact h1 ⟨n, h4⟩)]
      exact ⟨by omega, by omega, _, [], rfl⟩
  · refine PResSpec.bindExact (consumeIdentifier_spec hp) ?_
    intro n ts rest h1 h2 hg
    obtain ⟨t, rfl, ht⟩ := hg
    refine PResSpec.pure h2 ⟨rfl, ?_⟩
    rw [spanTokens_eq h1 (by simp)]
    exact .name ht

theorem parseType_other {toks : List Token} {fuel pos : Nat} {errors : List ParseErr} {v : TokVariant}
    (hv : variantAt toks pos = some v) (hls : v ≠ .leftSquare) :
    parseType toks (fuel + 1) pos errors =
      match keywordType? v with
      | some ty => .some ⟨spanTokens toks pos (pos + 1), ty⟩ (pos + 1) errors
      | none => parseCustom toks pos errors := by
  rw [parseType, hv]
  cases v <;> first | rfl | exact absurd rfl hls

theorem parseType_spec {toks : List Token} (hl : 2 ≤ toks.length) : ∀ (fuel pos : Nat) (errors : List ParseErr),
    pos ≤ toks.length → toks.length < fuel + pos → PResSpec toks pos errors (Exact errors TypeSyntax) (parseType toks fuel pos errors)
  | 0, pos, _, hp, hf => by omega
  | fuel + 1, pos, errors, hp, hf => by
    cases hv : variantAt toks pos with
    | none =>
      rw [parseType, hv]
      exact ⟨Nat.le_refl _, hp, _, [], rfl⟩
    | some v =>
      obtain ⟨t, ht, hvt⟩ := variantAt_some hv
      obtain ⟨hlt, -⟩ := List.getElem?_eq_some_iff.mp ht
      by_cases hls : v = .leftSquare
      · subst hls
        rw [parseType, hv]
        dsimp only
        have ih := parseType_spec hl fuel (pos + 1) errors hlt (by omega)
        refine PResSpec.after (ts := [t]) (drop_of_get ht) rfl ⟨[], by simp⟩ (PResSpec.bindExact ih ?_)
        intro inner ts rest h1 h2 h3
        refine PResSpec.bindExact (consume_spec h2) ?_
        intro _ us rest' g1 g2 g3
        obtain ⟨r, rfl, hr⟩ := g3
        refine PResSpec.pure g2 ⟨rfl, ?_⟩
        have e : toks.drop pos = (t :: ts ++ [r]) ++ rest' := by
          rw [drop_append h1] at g1
          rw [drop_of_get ht, show toks.drop (pos + 1) = ts ++ rest from h1, g1]; simp
        have := spanTokens_eq e (by simp)
        have e2 : pos + (t :: ts ++ [r]).length = pos + [t].length + ts.length + [r].length := by simp; omega
        rw [e2] at this
        rw [this]
        simpa using TypeSyntax.array hvt h3 hr
      · rw [parseType_other hv hls]
        cases hk : keywordType? v with
        | some ty =>
          dsimp only
          have e3 : toks.drop pos = [t] ++ toks.drop (pos + 1) := drop_of_get ht
          refine ⟨hlt, ⟨[], by simp⟩, [t], _, e3, rfl, rfl, ?_⟩
          have := spanTokens_eq e3 (by simp)
          have e2 : pos + [t].length = pos + 1 := rfl
          rw [e2] at this
          rw [this]
          exact .keyword (by rw [hvt]; exact (keywordType?_iff v ty).mp hk)
        | none => exact parseCustom_spec hp hl

/-! ## Fields -/

theorem parseComment_spec {toks : List Token} {pos : Nat} (hp : pos ≤ toks.length) : ∃ ts rest, toks.drop pos = ts ++ rest ∧
    (parseComment toks pos).2 = pos + ts.length ∧ (parseComment toks pos).2 ≤ toks.length ∧
    CommentSyntax ts (parseComment toks pos).1 := by
  unfold parseComment
  split
  · rename_i ps h
    obtain ⟨t, ht, hv⟩ := variantAt_some h
    obtain ⟨hlt, -⟩ := List.getElem?_eq_some_iff.mp ht
    exact ⟨[t], _, drop_of_get ht, rfl, hlt, .present hv⟩
  · exact ⟨[], _, rfl, rfl, hp, .absent⟩

theorem parseRule_spec {toks : List Token} {pos : Nat} (hp : pos ≤ toks.length) : ∃ ts rest, toks.drop pos = ts ++ rest ∧
    (parseRule toks pos).2 = pos + ts.length ∧ (parseRule toks pos).2 ≤ toks.length ∧
    RuleSyntax ts (parseRule toks pos).1 := by
  unfold parseRule
  split
  · rename_i h
    obtain ⟨t, ht, hv⟩ := variantAt_some h
    obtain ⟨hlt, -⟩ := List.getElem?_eq_some_iff.mp ht
    exact ⟨[t], _, drop_of_get ht, rfl, hlt, .asymmetric hv⟩
  · rename_i h
    obtain ⟨t, ht, hv⟩ := variantAt_some h
    obtain ⟨hlt, -⟩ := List.getElem?_eq_some_iff.mp ht
    exact ⟨[t], _, drop_of_get ht, rfl, hlt, .optional hv⟩
  · exact ⟨[], _, rfl, rfl, hp, .required⟩

theorem parseFieldType_spec {toks : List Token} {pos : Nat} {errors : List ParseErr} (hp : pos ≤ toks.length)
    (h1 : 1 ≤ pos) :
    PResSpec toks pos errors (Exact errors fun ts ty => (ts = [] ∧ ty = ⟨spanTokens toks pos pos, .unit⟩) ∨
      ∃ c us, ts = c :: us ∧ c.variant = .colon ∧ TypeSyntax us ty) (parseFieldType toks pos errors) := by
  unfold parseFieldType
  split
  · rename_i hc
    obtain ⟨c, hc1, hc2⟩ := variantAt_some hc
    obtain ⟨hlt, -⟩ := List.getElem?_eq_some_iff.mp hc1
    refine PResSpec.bindExact (consume_spec hp) ?_
    intro _ ts rest g1 g2 g3
    obtain ⟨t, rfl, ht⟩ := g3
    split
    · exact ⟨Nat.le_refl _, g2, _, [], rfl⟩
    · refine PResSpec.mono (parseType_spec (by omega) (toks.length + 1) (pos + [t].length) errors g2 (by omega)) ?_
      intro us _ ty e _ _ hg
      obtain ⟨rfl, hg⟩ := hg
      exact ⟨rfl, .inr ⟨t, us, rfl, ht, hg⟩⟩
  · exact PResSpec.pure hp ⟨rfl, .inl ⟨rfl, rfl⟩⟩

theorem spanTokens_empty {toks : List Token} {pos : Nat} {e : Token} {rest : List Token} (h : toks.drop pos = e :: rest) :
    spanTokens toks pos pos = ⟨e.sourceRange.start, e.sourceRange.start⟩ := by
  obtain ⟨h1, -, h2⟩ := drop_cons h
  unfold spanTokens
  rw [if_neg (by omega), if_pos rfl]
  simp [tokenSourceRange, h1]

theorem parseField_spec {toks : List Token} {pos : Nat} {errors : List ParseErr} (hp : pos ≤ toks.length) :
    PResSpec toks pos errors (Exact errors FieldSyntax) (parseField toks pos errors) := by
  unfold parseField
  obtain ⟨c, rest1, hc1, hc2, hc3, hc4⟩ := parseComment_spec hp
  dsimp only
  generalize parseComment toks pos = pc at hc2 hc3 hc4 ⊢
  obtain ⟨comment, pos1⟩ := pc
  dsimp only at hc2 hc3 hc4 ⊢
  obtain ⟨r, rest2, hr1, hr2, hr3, hr4⟩ := parseRule_spec hc3
  generalize parseRule toks pos1 = pr at hr2 hr3 hr4 ⊢
  obtain ⟨rule, pos2⟩ := pr
  dsimp only at hr2 hr3 hr4 ⊢
  refine PResSpec.afterSame hc1 hc2 (PResSpec.afterSame hr1 hr2 (PResSpec.bindExact (consumeIdentifier_spec hr3) ?_))
  rintro name _ rest3 h1 h2 ⟨n, rfl, hn⟩
  refine PResSpec.bindExact (parseFieldType_spec h2 (by simp)) ?_
  intro type ty rest4 g1 g2 g3
  refine PResSpec.bindExact (consume_spec g2) ?_
  rintro _ _ rest5 k1 k2 ⟨e, rfl, he⟩
  refine PResSpec.bindExact (consumeInteger_spec k2) ?_
  rintro index _ rest6 l1 l2 ⟨k, rfl, hk⟩
  refine PResSpec.pure l2 ⟨rfl, ?_⟩
  have htype : FieldTypeSyntax e ty type := by
    rcases g3 with ⟨rfl, rfl⟩ | ⟨c', us, rfl, h3, h4⟩
    · rw [show spanTokens toks (pos2 + [n].length) (pos2 + [n].length) = _ from spanTokens_empty k1]; exact .absent
    · exact .present h3 h4
  have hd : toks.drop pos = (c ++ r ++ n :: ty ++ [e, k]) ++ rest6 := by
    subst hc2
    subst hr2
    have a1 := (drop_append hc1).symm.trans hr1
    have a2 := (drop_append hr1).symm.trans h1
    have a3 := (drop_append h1).symm.trans g1
    have a4 := (drop_append g1).symm.trans k1
    have a5 := (drop_append k1).symm.trans l1
    rw [hc1, a1, a2, a3, a4, a5]; simp
  have hsp := spanTokens_eq hd (by simp)
  have hlen : pos + (c ++ r ++ n :: ty ++ [e, k]).length = pos2 + [n].length + ty.length + [e].length + [k].length := by
    rw [hr2, hc2]; simp; omega
  rw [hlen] at hsp
  rw [hsp]
  have := FieldSyntax.mk hc4 hr4 hn htype he hk
  simpa using this

end Typical
