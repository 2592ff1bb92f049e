import Verif.Spec.SameCode
import Verif.Front.FormatNames
import Verif.Spec.Schema
import Verif.Front.LoaderLemmas

/-!
# Names with the same forms; schemas with the same meaning are well-formed together
-/

namespace Typical

theorem lowerWords {T : CharTable} (hT : T.Ascii) {s : Str} (hs : AsciiName s) : ∀ w ∈ (splitWords T s).map T.lowercase, LowerWord w := by
  intro w hw
  obtain ⟨v, hv, rfl⟩ := List.mem_map.mp hw
  have := plain_words hT hs hv
  rw [lowercase_plain hT this]
  exact this.lower

theorem lowercase_idem {T : CharTable} (hT : T.Ascii) {w : Str} (h : LowerWord w) : T.lowercase w = w := by
  rw [hT.lowercase w (fun c hc => alphanum_lt (lower_alphanum (h.2 c hc)))]
  conv => rhs; rw [← List.map_id w]
  exact List.map_congr_left (fun c hc => toLower_lower (h.2 c hc))

theorem toUpper_toLower {c : Char} (h : c.isAlphanum = true) : c.toLower.toUpper = c.toUpper := by
  have := ascii_all (fun c => !c.isAlphanum || c.toLower.toUpper == c.toUpper) (by decide +kernel) (alphanum_lt h)
  simpa [h] using this

theorem capitalize_lowercase {T : CharTable} (hT : T.Ascii) {w : Str} (h : PlainWord w) : capitalize T (T.lowercase w) = capitalize T w := by
  have hl : PlainWord (T.lowercase w) := by
    rw [lowercase_plain hT h]
    exact ⟨by simpa using h.1, fun c hc => lower_alphanum (h.lower.2 c hc)⟩
  obtain ⟨c, t, rfl, e⟩ := capitalize_chars hT h
  obtain ⟨c', t', e', e''⟩ := capitalize_chars hT hl
  rw [lowercase_plain hT h, List.map_cons] at e'
  injection e' with e1 e2
  rw [e, e'', ← e1, ← e2, toUpper_toLower (h.2 c (by simp)), List.map_map]
  congr 1
  exact List.map_congr_left (fun x hx => toLower_lower (toLower_alphanum (h.2 x (by simp [hx]))))

/-- For ASCII names, the forms depend only on the name. -/
theorem forms_of_same {T : CharTable} (hT : T.Ascii) {a b : Str} (ha : AsciiName a) (hb : AsciiName b)
    (h : SameName (Identifier.ofStr T a) (Identifier.ofStr T b)) : SameForms T (Identifier.ofStr T a) (Identifier.ofStr T b) := by
  have hs : (Identifier.ofStr T a).snakeCase = (Identifier.ofStr T b).snakeCase := by simpa [SameName, Identifier.same] using h
  have hw : (splitWords T a).map T.lowercase = (splitWords T b).map T.lowercase := by
    have := congrArg (splitWords T) hs
    rwa [show (Identifier.ofStr T a).snakeCase = joinWith ['_'] ((splitWords T a).map T.lowercase) from rfl,
      show (Identifier.ofStr T b).snakeCase = joinWith ['_'] ((splitWords T b).map T.lowercase) from rfl,
      split_snake hT _ (lowerWords hT ha), split_snake hT _ (lowerWords hT hb)] at this
  have hc : ∀ s : Str, AsciiName s → (splitWords T s).map (capitalize T) = ((splitWords T s).map T.lowercase).map (capitalize T) := by
    intro s hs
    rw [List.map_map]
    exact List.map_congr_left (fun w hw => (capitalize_lowercase hT (plain_words hT hs hw)).symm)
  have hcap : (splitWords T a).map (capitalize T) = (splitWords T b).map (capitalize T) := by rw [hc a ha, hc b hb, hw]
  refine ⟨hs, ?_, ?_⟩
  · unfold Identifier.camelCase Identifier.ofStr
    dsimp only
    revert hw hcap
    cases splitWords T a with
    | nil =>
      cases splitWords T b with
      | nil => intro _ _; rfl
      | cons _ _ => intro h _; cases h
    | cons w ws =>
      cases splitWords T b with
      | nil => intro h _; cases h
      | cons w' ws' =>
        intro h h'
        injection h with h1 _
        injection h' with _ h2
        dsimp only
        rw [h1, List.flatMap_def, List.flatMap_def, h2]
  · unfold Identifier.pascalCase Identifier.ofStr
    rw [List.flatMap_def, List.flatMap_def, hcap]

/-- The lower-case form of the name is an identifier, and has the same forms. -/
def SnakeForms (T : CharTable) (n : Identifier) : Prop := PlainName T n.snakeCase ∧ SameForms T n (Identifier.ofStr T n.snakeCase)

/-- The capitalised form of the name is an identifier, and has the same forms. -/
def PascalForms (T : CharTable) (n : Identifier) : Prop := PlainName T (n.pascalCase T) ∧ SameForms T n (Identifier.ofStr T (n.pascalCase T))

theorem SnakeForms.ok {T : CharTable} {n : Identifier} (h : SnakeForms T n) : SnakeOk T n :=
  ⟨h.1, by simpa [SameName, Identifier.same] using h.2.snake⟩
theorem PascalForms.ok {T : CharTable} {n : Identifier} (h : PascalForms T n) : PascalOk T n :=
  ⟨h.1, by simpa [SameName, Identifier.same] using h.2.snake⟩

theorem snake_ascii {T : CharTable} (hT : T.Ascii) {s : Str} (hs : AsciiName s) : AsciiName (Identifier.ofStr T s).snakeCase := by
  refine joinWith_chars (by intro c hc; simp at hc; exact .inr (.inl hc)) _ ?_
  intro w hw c hc
  exact .inl (lower_alphanum ((lowerWords hT hs w hw).2 c hc))

theorem snakeForms {T : CharTable} (hT : T.Ascii) {s : Str} (h : LetterName s) (hk : ¬ IsKeyword (Identifier.ofStr T s).snakeCase) :
    SnakeForms T (Identifier.ofStr T s) :=
  ⟨(snake_plain hT h hk).1, forms_of_same hT h.ascii (snake_ascii hT h.ascii) (snake_plain hT h hk).2⟩

theorem pascalForms {T : CharTable} (hT : T.Ascii) {s : Str} (h : LetterName s) (hd : NoDigitWord T s)
    (hk : ¬ IsKeyword ((Identifier.ofStr T s).pascalCase T)) : PascalForms T (Identifier.ofStr T s) :=
  ⟨(pascal_ok hT h hd hk).1, forms_of_same hT h.ascii (fun c hc => .inl ((pascal_chars hT h).2 c hc)) (pascal_ok hT h hd hk).2⟩

/-! ### Well-formedness -/

theorem sameName_iff {a b : Identifier} : SameName a b ↔ a.snakeCase = b.snakeCase := by simp [SameName, Identifier.same]

theorem each_swap {α β : Type} {R : α → β → Prop} {Q : β → α → Prop} {as : List α} {bs : List β} (h : Each R as bs)
    (hRQ : ∀ a b, R a b → Q b a) : Each Q bs as := by
  induction h with
  | nil => exact .nil
  | cons h0 _ ih => exact .cons (hRQ _ _ h0) ih

/-- The declaration without comments: only names, types, rules and indices, and their order. -/
structure SameDecl₀ (d d' : Declaration) : Prop where
  name : d'.name.snakeCase = d.name.snakeCase
  fields : Each (fun f f' : Field => f'.name.snakeCase = f.name.snakeCase ∧ f'.index = f.index ∧ SameFieldType f.type.variant f'.type.variant)
    d.fields d'.fields
  deleted : d'.deleted = d.deleted

theorem sameType_symm : {a b : TypeVariant} → SameFieldType a b → SameFieldType b a
  | .array _ a, b, h => by
    cases b <;> first | exact h.elim | exact sameType_symm (a := a) h
  | .custom i m, b, h => by
    cases b with
    | custom j n =>
      refine ⟨?_, sameName_iff.mpr (sameName_iff.mp h.2).symm⟩
      cases i <;> cases j
      · trivial
      · exact h.1
      · exact h.1
      · exact sameName_iff.mpr (sameName_iff.mp h.1).symm
    | _ => exact h.elim
  | .bool, b, h => by cases b <;> first | exact h.elim | trivial
  | .bytes, b, h => by cases b <;> first | exact h.elim | trivial
  | .f64, b, h => by cases b <;> first | exact h.elim | trivial
  | .s64, b, h => by cases b <;> first | exact h.elim | trivial
  | .string, b, h => by cases b <;> first | exact h.elim | trivial
  | .u64, b, h => by cases b <;> first | exact h.elim | trivial
  | .unit, b, h => by cases b <;> first | exact h.elim | trivial

theorem mentions_same {a b : TypeVariant} {i : Option Identifier} {n : Identifier} (hm : a.Mentions i n) (h : SameFieldType a b) :
    ∃ j m, b.Mentions j m ∧ SameImportName i j ∧ SameName n m := by
  induction hm generalizing b with
  | custom i n =>
    cases b with
    | custom j m => exact ⟨j, m, .custom _ _, h.1, h.2⟩
    | _ => exact h.elim
  | array _ ih =>
    cases b with
    | array _ b =>
      obtain ⟨j, m, h1, h2⟩ := ih h
      exact ⟨j, m, .array h1, h2⟩
    | _ => exact h.elim

/-- The files mean the same. -/
def SameMeaning (S S' : Schemas) : Prop :=
  Each (fun e e' => e'.1 = e.1 ∧ Each SameTarget e.2.imports e'.2.imports ∧ Each SameDecl₀ e.2.declarations e'.2.declarations) S S'

theorem SameMeaning.symm {S S' : Schemas} (h : SameMeaning S S') : SameMeaning S' S := by
  refine each_swap h ?_
  rintro e e' ⟨h1, h2, h3⟩
  refine ⟨h1.symm, each_swap h2 (fun i i' hi => ⟨sameName_iff.mpr (sameName_iff.mp hi.1).symm, hi.2.symm⟩), each_swap h3 ?_⟩
  intro d d' hd
  exact ⟨hd.name.symm, each_swap hd.fields (fun f f' hf => ⟨hf.1.symm, hf.2.1.symm, sameType_symm hf.2.2⟩), hd.deleted.symm⟩

theorem each_mem_left {α β : Type} {R : α → β → Prop} {as : List α} {bs : List β} (h : Each R as bs) : ∀ a ∈ as, ∃ b ∈ bs, R a b := by
  induction h with
  | nil => intro a ha; cases ha
  | @cons a0 b0 _ _ h0 _ ih =>
    intro a ha
    rcases List.mem_cons.mp ha with rfl | ha
    · exact ⟨_, List.mem_cons_self .., h0⟩
    · obtain ⟨b, hb, hr⟩ := ih a ha
      exact ⟨b, List.mem_cons_of_mem _ hb, hr⟩

theorem each_map_eq {α β γ : Type} {R : α → β → Prop} {as : List α} {bs : List β} (h : Each R as bs) {f : α → γ} {g : β → γ}
    (hfg : ∀ a b, R a b → g b = f a) : bs.map g = as.map f := by
  induction h with
  | nil => rfl
  | cons h0 _ ih => rw [List.map_cons, List.map_cons, ih, hfg _ _ h0]

theorem each_length_eq {α β : Type} {R : α → β → Prop} {as : List α} {bs : List β} (h : Each R as bs) : bs.length = as.length := by
  induction h with
  | nil => rfl
  | cons _ _ ih => rw [List.length_cons, List.length_cons, ih]

theorem SameMeaning.declares {S S' : Schemas} (h : SameMeaning S S') {k : List Str × Str} {ns : Namespace} {s : Schema} {d : Declaration}
    (hd : S.Declares k ns s d) : ∃ s' d', S'.Declares k ns s' d' ∧ SameDecl₀ d d' ∧ Each SameTarget s.imports s'.imports := by
  obtain ⟨h1, h2, h3⟩ := hd
  obtain ⟨⟨ns', s'⟩, he', hn, hi, hds⟩ := each_mem_left h _ h1
  obtain ⟨d', hd', hsame⟩ := each_mem_left hds d h2
  dsimp only at hn
  subst hn
  exact ⟨s', d', ⟨he', hd', by rw [h3, hsame.name]⟩, hsame, hi⟩

theorem refersTo_same {s s' : Schema} (h : Each SameTarget s.imports s'.imports) {ns : Namespace} {i j : Option Identifier} {n m : Identifier}
    (hij : SameImportName i j) (hn : SameName n m) {k : List Str × Str} (hr : s.RefersTo ns i n k) : s'.RefersTo ns j m k := by
  rw [sameName_iff] at hn
  cases i with
  | none =>
    cases j with
    | none => exact Eq.trans hr (by rw [hn])
    | some j => exact hij.elim
  | some i =>
    cases j with
    | none => exact hij.elim
    | some j =>
      obtain ⟨e, he, h1, t, h2, h3⟩ := hr
      obtain ⟨e', he', hs⟩ := each_mem_left h e he
      exact ⟨e', he', by rw [← sameName_iff.mp hs.1, h1]; exact sameName_iff.mp hij, t, by rw [hs.2, h2], by rw [h3, hn]⟩

theorem SameMeaning.contains {S S' : Schemas} (h : SameMeaning S S') {k k' : List Str × Str} (hc : S.Contains k k') : S'.Contains k k' := by
  obtain ⟨ns, s, d, hd, f, hf, i, n, hm, hr⟩ := hc
  obtain ⟨s', d', hd', hsame, hi⟩ := h.declares hd
  obtain ⟨f', hf', -, -, ht⟩ := each_mem_left hsame.fields f hf
  obtain ⟨j, m, hm', hij, hn⟩ := mentions_same hm ht
  exact ⟨ns, s', d', hd', f', hf', j, m, hm', refersTo_same hi hij hn hr⟩

theorem SameMeaning.wellFormed {S S' : Schemas} (h : SameMeaning S S') (hw : S.WellFormed) : S'.WellFormed := by
  have hmem : ∀ e' ∈ S', ∃ e ∈ S, e'.1 = e.1 ∧ Each SameTarget e.2.imports e'.2.imports ∧ Each SameDecl₀ e.2.declarations e'.2.declarations :=
    each_mem_right h
  refine ⟨?_, ?_, ?_⟩
  · intro e' he'
    obtain ⟨e, he, -, -, hds⟩ := hmem e' he'
    rw [each_map_eq hds (fun d d' hd => hd.name)]
    exact hw.names e he
  · intro e' he' d' hd'
    obtain ⟨e, he, hns, hi, hds⟩ := hmem e' he'
    obtain ⟨d, hd, hsame⟩ := each_mem_right hds d' hd'
    have hok := hw.declarations e he d hd
    refine ⟨?_, ?_, ?_, ?_⟩
    · rw [each_map_eq hsame.fields (fun f f' hf => hf.1)]; exact hok.names
    · rw [each_map_eq hsame.fields (fun f f' hf => hf.2.1), each_length_eq hsame.fields, hsame.deleted]; exact hok.indices
    · intro f' hf'
      obtain ⟨f, hf, -, hx, -⟩ := each_mem_right hsame.fields f' hf'
      rw [hx]
      exact hok.bound f hf
    · intro f' hf' j m hm
      obtain ⟨f, hf, -, -, ht⟩ := each_mem_right hsame.fields f' hf'
      obtain ⟨i, n, hm', hij, hn⟩ := mentions_same hm (sameType_symm ht)
      obtain ⟨k, hr, ns', s1, d1, hdec⟩ := hok.types f hf i n hm'
      obtain ⟨s2, d2, hdec', -⟩ := h.declares hdec
      refine ⟨k, ?_, ns', s2, d2, hdec'⟩
      rw [hns]
      refine refersTo_same hi ?_ (sameName_iff.mpr (sameName_iff.mp hn).symm) hr
      cases i <;> cases j
      · trivial
      · exact hij.elim
      · exact hij.elim
      · exact sameName_iff.mpr (sameName_iff.mp hij).symm
  · intro k hk
    have : ∀ {b}, Relation.TransGen S'.Contains k b → Relation.TransGen S.Contains k b := by
      intro b hb
      induction hb with
      | single hc => exact .single (h.symm.contains hc)
      | tail _ hc ih => exact .tail ih (h.symm.contains hc)
    exact hw.acyclic k (this hk)

end Typical
