import Verif.Front.FormatParse
import Verif.Props.Identifier

/-!
# Which schemas satisfy the conditions of the formatter
-/

namespace Typical

/-! ## Parsed schemas -/

/-- What is known of tokens. -/
def TokOk : TokVariant → Prop
  | .integer n => n < 2 ^ 64
  | .path p => '\'' ∉ p
  | _ => True

theorem spells_ok {T : CharTable} {text : Str} {v : TokVariant} (h : Spells T text v) : TokOk v := by
  cases h with
  | symbol h =>
    simp only [symbolTable, List.mem_cons, Prod.mk.injEq, List.not_mem_nil, or_false] at h
    rcases h with ⟨-, rfl⟩ | ⟨-, rfl⟩ | ⟨-, rfl⟩ | ⟨-, rfl⟩ | ⟨-, rfl⟩ | ⟨-, rfl⟩ | ⟨-, rfl⟩ <;> trivial
  | keyword h =>
    simp only [keywordTable, List.mem_cons, Prod.mk.injEq, List.not_mem_nil, or_false] at h
    rcases h with ⟨-, rfl⟩ | ⟨-, rfl⟩ | ⟨-, rfl⟩ | ⟨-, rfl⟩ | ⟨-, rfl⟩ | ⟨-, rfl⟩ | ⟨-, rfl⟩ | ⟨-, rfl⟩ | ⟨-, rfl⟩ | ⟨-, rfl⟩ |
      ⟨-, rfl⟩ | ⟨-, rfl⟩ | ⟨-, rfl⟩ | ⟨-, rfl⟩ <;> trivial
  | identifier => trivial
  | raw => trivial
  | integer _ _ h => exact h
  | path h => exact h
  | comment => trivial

theorem lexes_ok {T : CharTable} {i : Nat} {s : Str} {ts : List Token} (h : Lexes T i s ts) : ∀ t ∈ ts, TokOk t.variant := by
  induction h with
  | nil => simp
  | cons _ _ hsp _ _ ih =>
    intro t ht
    rcases List.mem_cons.mp ht with rfl | ht
    · exact spells_ok hsp
    · exact ih t ht

theorem many_mem {α : Type} {G : List Token → α → Prop} {ts : List Token} {as : List α} (h : Many G ts as) :
    ∀ a ∈ as, ∃ us, G us a ∧ ∀ t ∈ us, t ∈ ts := by
  induction h with
  | nil => simp
  | @cons us a vs as h0 _ ih =>
    intro b hb
    rcases List.mem_cons.mp hb with rfl | hb
    · exact ⟨us, h0, fun t ht => by simp [ht]⟩
    · obtain ⟨ws, h1, h2⟩ := ih b hb
      exact ⟨ws, h1, fun t ht => by simp [h2 t ht]⟩

theorem field_index {ts : List Token} {f : Field} (h : FieldSyntax ts f) (ht : ∀ t ∈ ts, TokOk t.variant) : f.index < 2 ^ 64 := by
  cases h with
  | @mk c r n ty e k _ _ _ _ _ _ _ _ _ _ hk =>
    have := ht k (by simp)
    rw [hk] at this
    exact this

theorem decl_deleted {ts : List Token} {d : Declaration} (h : DeclSyntax ts d) (ht : ∀ t ∈ ts, TokOk t.variant) :
    (∀ n ∈ d.deleted, n < 2 ^ 64) ∧ d.deleted.Pairwise (· < ·) ∧ ∀ f ∈ d.fields, f.index < 2 ^ 64 := by
  cases h with
  | @mk c k n l fs del r _ _ _ _ _ hc hk hn hl hfs hdel hr =>
    refine ⟨?_, ?_, ?_⟩
    · cases hdel with
      | absent => simp
      | @present d ks ns _ hd hks _ hperm hs =>
        intro n hn
        have h1 : TokVariant.integer n ∈ ks.map Token.variant := by
          rw [hks]; exact List.mem_map.mpr ⟨n, hperm.mem_iff.mp hn, rfl⟩
        obtain ⟨t, h2, h3⟩ := List.mem_map.mp h1
        have := ht t (by simp [h2])
        rw [h3] at this
        exact this
    · cases hdel with
      | absent => exact .nil
      | present _ _ _ _ hs => exact hs
    · intro f hf
      obtain ⟨us, h1, h2⟩ := many_mem hfs f hf
      exact field_index h1 (fun t htu => ht t (by simp [h2 t htu]))

theorem import_path {T : CharTable} {ts : List Token} {i : Identifier × Import} (h : ImportSyntax T ts i)
    (ht : ∀ t ∈ ts, TokOk t.variant) : '\'' ∉ i.2.path := by
  cases h with
  | @named i p a n _ _ _ hp =>
    have := ht p (by simp)
    rw [hp] at this
    exact this
  | @unnamed i p _ _ _ hp =>
    have := ht p (by simp)
    rw [hp] at this
    exact this

theorem parsed_formattable {T : CharTable} (hT : T.Ascii) (hS : T.SpaceApart) {F : Nat → Str → Str} {src : Str}
    {toks : List Token} {s : Schema} (h1 : tokenize T src = .ok toks) (h2 : parse T toks = .ok s) {N M : Identifier → Prop}
    (hn : NamesOk T N M s) (hc : CommentsOk (Fillable T F) s) : Formattable T F N M s := by
  have ht := lexes_ok ((tokenize_iff hT hS _ _).mp h1)
  have hs := parse_iff.mp h2
  cases hs with
  | @mk c is ds comment written imports decls hcs hw hnd hperm hsorted hds =>
    have hd : ∀ d ∈ decls, (∀ n ∈ d.deleted, n < 2 ^ 64) ∧ d.deleted.Pairwise (· < ·) ∧ ∀ f ∈ d.fields, f.index < 2 ^ 64 := by
      intro d hd
      obtain ⟨us, g1, g2⟩ := many_mem hds d hd
      exact decl_deleted g1 (fun t htu => ht t (by simp [g2 t htu]))
    refine ⟨hc.schema, ?_, hn.imports, hsorted, ?_⟩
    · intro i hi
      obtain ⟨us, g1, g2⟩ := many_mem hw i (hperm.mem_iff.mp hi)
      exact import_path g1 (fun t htu => ht t (by simp [g2 t htu]))
    · intro d hdd
      obtain ⟨g1, g2, g3⟩ := hd d hdd
      refine ⟨hn.declarations d hdd, hc.declarations d hdd, g1, g2, ?_⟩
      intro f hf
      exact ⟨(hn.fields d hdd f hf).1, hc.fields d hdd f hf, g3 f hf, (hn.fields d hdd f hf).2⟩

theorem typeNames_mono {N M N' M' : Identifier → Prop} (h1 : ∀ n, N n → N' n) (h2 : ∀ n, M n → M' n) : ∀ ty : TypeVariant,
    TypeNames N M ty → TypeNames N' M' ty
  | .array _ a, h => typeNames_mono h1 h2 a h
  | .custom i n, h => ⟨fun m hm => h1 m (h.1 m hm), h2 n h.2⟩
  | .bool, _ => trivial
  | .bytes, _ => trivial
  | .f64, _ => trivial
  | .s64, _ => trivial
  | .string, _ => trivial
  | .u64, _ => trivial
  | .unit, _ => trivial

theorem namesOk_mono {T : CharTable} {N M N' M' : Identifier → Prop} (h1 : ∀ n, N n → N' n) (h2 : ∀ n, M n → M' n)
    {s : Schema} (h : NamesOk T N M s) : NamesOk T N' M' s :=
  ⟨fun i hi => (h.imports i hi).imp id (h1 _), fun d hd => h2 _ (h.declarations d hd),
    fun d hd f hf => ⟨h1 _ (h.fields d hd f hf).1, typeNames_mono h1 h2 _ (h.fields d hd f hf).2⟩⟩

/-! ## ASCII names -/

theorem words_first {T : CharTable} {s : Str} {ws : List Str} (h : Words T s ws) {c : Char} {t : Str} (hs : s = c :: t)
    (h1 : c ≠ '_') (h2 : c ≠ '-') : ∃ w ws', ws = (c :: w) :: ws' := by
  cases h with
  | nil => cases hs
  | separator hc =>
    cases hs
    rcases hc with rfl | rfl
    · exact absurd rfl h1
    · exact absurd rfl h2
  | word =>
    cases hs
    exact ⟨_, _, rfl⟩

/-- A name of ASCII letters, digits and underscores which begins with a letter. -/
def LetterName (s : Str) : Prop := (∃ c t, s = c :: t ∧ c.isAlpha = true) ∧ ∀ c ∈ s, c.isAlphanum = true ∨ c = '_'

theorem LetterName.ascii {s : Str} (h : LetterName s) : AsciiName s := by
  intro c hc
  rcases h.2 c hc with h | h
  · exact .inl h
  · exact .inr (.inl h)

theorem LetterName.first {T : CharTable} (hT : T.Ascii) {s : Str} (h : LetterName s) :
    ∃ c w ws, splitWords T s = (c :: w) :: ws ∧ c.isAlpha = true := by
  obtain ⟨⟨c, t, rfl, hc⟩, -⟩ := h
  obtain ⟨ws, hw⟩ := words_exists T (c :: t)
  have hsep : c ≠ '_' ∧ c ≠ '-' := by
    constructor <;> (intro h; subst h; exact absurd hc (by decide))
  obtain ⟨w, ws', rfl⟩ := words_first hw rfl hsep.1 hsep.2
  exact ⟨c, w, ws', splitWords_words (Ascii.sep hT).1 (Ascii.sep hT).2 hw, hc⟩

theorem alphanum_wordChar {T : CharTable} (hT : T.Ascii) {c : Char} (h : c.isAlphanum = true) : T.WordChar c :=
  .inl (by rw [hT.isAlphanumeric c (alphanum_lt h)]; exact h)

theorem toLower_isAlpha {c : Char} (h : c.isAlpha = true) : c.toLower.isAlpha = true ∧ c.toUpper.isAlpha = true := by
  have ha : c.isAlphanum = true := by simp [Char.isAlphanum, h]
  have := ascii_all (fun c => !c.isAlpha || (c.toLower.isAlpha && c.toUpper.isAlpha)) (by decide +kernel) (alphanum_lt ha)
  simpa [h] using this

theorem isAlpha_alphabetic {T : CharTable} (hT : T.Ascii) {c : Char} (h : c.isAlpha = true) : T.isAlphabetic c = true := by
  have ha : c.isAlphanum = true := by simp [Char.isAlphanum, h]
  rw [hT.isAlphabetic c (alphanum_lt ha)]; exact h

theorem joinWith_chars {P : Char → Prop} {sep : Str} (hs : ∀ c ∈ sep, P c) : ∀ ws : List Str, (∀ w ∈ ws, ∀ c ∈ w, P c) →
    ∀ c ∈ joinWith sep ws, P c
  | [], _, c, hc => by cases hc
  | [w], h, c, hc => h w (by simp) c hc
  | w :: w' :: ws, h, c, hc => by
    rw [joinWith] at hc
    rcases List.mem_append.mp hc with hc | hc
    · rcases List.mem_append.mp hc with hc | hc
      · exact h w (by simp) c hc
      · exact hs c hc
    · exact joinWith_chars hs (w' :: ws) (fun v hv => h v (by simp [hv])) c hc

theorem snake_plain {T : CharTable} (hT : T.Ascii) {s : Str} (h : LetterName s)
    (hk : ¬ IsKeyword (Identifier.ofStr T s).snakeCase) : SnakeOk T (Identifier.ofStr T s) := by
  refine ⟨⟨?_, hk⟩, ?_⟩
  · have hall : ∀ c ∈ (Identifier.ofStr T s).snakeCase, T.WordChar c := by
      refine joinWith_chars (by intro c hc; simp at hc; exact .inr hc) _ ?_
      intro w hw c hc
      obtain ⟨v, hv, rfl⟩ := List.mem_map.mp hw
      have hp := plain_words hT h.ascii hv
      rw [lowercase_plain hT hp] at hc
      exact alphanum_wordChar hT (lower_alphanum (hp.lower.2 c hc))
    obtain ⟨c, w, ws, hw, hc⟩ := h.first hT
    have hp := plain_words hT h.ascii (w := c :: w) (by rw [hw]; simp)
    have e : ∃ t, (Identifier.ofStr T s).snakeCase = c.toLower :: t := by
      show ∃ t, joinWith ['_'] ((splitWords T s).map T.lowercase) = _
      rw [hw, List.map_cons, lowercase_plain hT hp]
      cases ws with
      | nil => exact ⟨_, rfl⟩
      | cons x xs => exact ⟨_, rfl⟩
    obtain ⟨t, ht⟩ := e
    rw [ht] at hall ⊢
    exact ⟨_, t, rfl, isAlpha_alphabetic hT (toLower_isAlpha hc).1, fun d hd => hall d (by simp [hd])⟩
  · have := C38_snake_round_trip T hT s h.ascii
    simp only [SameName, Identifier.same, beq_iff_eq] at this ⊢
    exact this.symm

theorem capitalize_chars {T : CharTable} (hT : T.Ascii) {w : Str} (hp : PlainWord w) :
    ∃ c t, w = c :: t ∧ capitalize T w = c.toUpper :: t.map Char.toLower := by
  obtain ⟨hne, hw⟩ := hp
  cases w with
  | nil => exact absurd rfl hne
  | cons c w =>
    refine ⟨c, w, rfl, ?_⟩
    rw [capitalize, hT.toUppercase c (alphanum_lt (hw c (by simp))),
      hT.lowercase w (fun x hx => alphanum_lt (hw x (by simp [hx])))]
    rfl

theorem toUpper_alphanum {c : Char} (h : c.isAlphanum = true) : c.toUpper.isAlphanum = true := by
  have := ascii_all (fun c => !c.isAlphanum || c.toUpper.isAlphanum) (by decide +kernel) (alphanum_lt h)
  simpa [h] using this

theorem pascal_chars {T : CharTable} (hT : T.Ascii) {s : Str} (h : LetterName s) :
    (∃ c t, (Identifier.ofStr T s).pascalCase T = c :: t ∧ c.isAlpha = true ∧ c.isUpper = true) ∧
      ∀ c ∈ (Identifier.ofStr T s).pascalCase T, c.isAlphanum = true := by
  constructor
  · obtain ⟨c, w, ws, hw, hc⟩ := h.first hT
    obtain ⟨c', t, he, hcap⟩ := capitalize_chars hT (plain_words hT h.ascii (w := c :: w) (by rw [hw]; simp))
    cases he
    refine ⟨c.toUpper, w.map Char.toLower ++ ws.flatMap (capitalize T), ?_, (toLower_isAlpha hc).2, (toUpper_alpha hc).1⟩
    · show (splitWords T s).flatMap (capitalize T) = _
      rw [hw, List.flatMap_cons, hcap]
      rfl
  · intro c hc
    obtain ⟨w, hw, hcw⟩ := List.mem_flatMap.mp hc
    have hp := plain_words hT h.ascii hw
    obtain ⟨x, t, he, hcap⟩ := capitalize_chars hT hp
    rw [hcap] at hcw
    rcases List.mem_cons.mp hcw with rfl | hcw
    · exact toUpper_alphanum (hp.2 x (by rw [he]; simp))
    · obtain ⟨y, hy, rfl⟩ := List.mem_map.mp hcw
      exact lower_alphanum (toLower_alphanum (hp.2 y (by rw [he]; simp [hy])))

theorem pascal_plain {T : CharTable} (hT : T.Ascii) {s : Str} (h : LetterName s)
    (hk : ¬ IsKeyword ((Identifier.ofStr T s).pascalCase T)) : PascalPlain T (Identifier.ofStr T s) := by
  refine ⟨?_, hk⟩
  obtain ⟨⟨c, t, he, hc, -⟩, hall⟩ := pascal_chars hT h
  rw [he] at hall ⊢
  exact ⟨c, t, rfl, isAlpha_alphabetic hT hc, fun d hd => alphanum_wordChar hT (hall d (by simp [hd]))⟩

theorem pascal_ok {T : CharTable} (hT : T.Ascii) {s : Str} (h : LetterName s) (hd : NoDigitWord T s)
    (hk : ¬ IsKeyword ((Identifier.ofStr T s).pascalCase T)) : PascalOk T (Identifier.ofStr T s) := by
  refine ⟨pascal_plain hT h hk, ?_⟩
  have := C38_pascal_round_trip T hT s h.ascii hd
  simp only [SameName, Identifier.same, beq_iff_eq] at this ⊢
  exact this.symm

/-- A name in Pascal case keeps its form. -/
theorem pascal_fixed {T : CharTable} (hT : T.Ascii) {s : Str} {ws : List Str} (h : Words T s ws)
    (ha : ∀ c ∈ s, c.isAlphanum = true) (hf : ∀ c t, s = c :: t → c.isUpper = true) : ws.flatMap (capitalize T) = s := by
  induction h with
  | nil => rfl
  | @separator c s ws hc _ _ =>
    have := ha c (by simp)
    rcases hc with rfl | rfl <;> exact absurd this (by decide)
  | @word c w s ws h1 h2 hw hs _ ih =>
    rw [List.flatMap_cons, ih (fun x hx => ha x (by simp [hx])) (by
      intro x t he
      have hx := ha x (by rw [he]; simp)
      rcases hs x t he with rfl | rfl | hu
      · exact absurd hx (by decide)
      · exact absurd hx (by decide)
      · rw [hT.isUppercase x (alphanum_lt hx)] at hu; exact hu)]
    have hcu := hf c (w ++ s) rfl
    have hca := ha c (by simp)
    have hup : c.toUpper = c := by
      have := ascii_all (fun c => !c.isUpper || c.toUpper == c) (by decide +kernel) (alphanum_lt hca)
      simpa [hcu] using this
    have hlow : w.map Char.toLower = w := by
      conv => rhs; rw [← List.map_id w]
      apply List.map_congr_left
      intro x hx
      have hxa := ha x (by simp [hx])
      have hxu := (hw x hx).2.2
      rw [hT.isUppercase x (alphanum_lt hxa)] at hxu
      exact toLower_lower (lower_or_digit hxa hxu)
    have : capitalize T (c :: w) = c :: w := by
      rw [capitalize, hT.toUppercase c (alphanum_lt hca), hup,
        hT.lowercase w (fun x hx => alphanum_lt (ha x (by simp [hx]))), hlow]
      rfl
    rw [this]

theorem pascal_stable {T : CharTable} (hT : T.Ascii) {s : Str} (h : LetterName s) :
    (Identifier.ofStr T ((Identifier.ofStr T s).pascalCase T)).pascalCase T = (Identifier.ofStr T s).pascalCase T := by
  obtain ⟨⟨c, t, he, hc, hu⟩, hall⟩ := pascal_chars hT h
  obtain ⟨ws, hw⟩ := words_exists T ((Identifier.ofStr T s).pascalCase T)
  show (splitWords T ((Identifier.ofStr T s).pascalCase T)).flatMap (capitalize T) = _
  rw [splitWords_words (Ascii.sep hT).1 (Ascii.sep hT).2 hw]
  refine pascal_fixed hT hw hall ?_
  intro x y hxy
  rw [he] at hxy
  cases hxy
  exact hu

end Typical
