import Verif.Front.FormatNames
import Verif.Props.Parser

/-!
# Properties of the formatter (C36, C37)

`T` is the Unicode table and `F` is `textwrap::fill`.
-/

namespace Typical

theorem typeBack_same {T : CharTable} {a b : TypeVariant} (h : TypeBack T a b) (hn : TypeNames (SnakeOk T) (PascalOk T) a) :
    SameFieldType a b := by
  induction h with
  | array _ ih => exact ih hn
  | bare => exact ⟨trivial, hn.2.2⟩
  | qualified => exact ⟨(hn.1 _ rfl).2, hn.2.2⟩
  | _ => trivial

theorem each_imp {α β : Type} {R S : α → β → Prop} {as : List α} {bs : List β} (h : Each R as bs)
    (hrs : ∀ a ∈ as, ∀ b, R a b → S a b) : Each S as bs := by
  induction h with
  | nil => exact .nil
  | cons h0 _ ih => exact .cons (hrs _ (by simp) _ h0) (ih (fun a ha b hb => hrs a (by simp [ha]) b hb))

theorem schemaBack_same {T : CharTable} {F : Nat → Str → Str} {s s' : Schema} (h : SchemaBack T F s s')
    (hn : NamesOk T (SnakeOk T) (PascalOk T) s) :
    SameSchema (refill T F marginWidth) (refill T F fieldWidth) s s' := by
  refine ⟨h.comment, each_imp h.imports ?_, each_imp h.declarations ?_⟩
  · intro i hi i' hb
    have := importBack_name hb ((hn.imports i hi).imp id (fun h => h.2))
    exact ⟨by simp [SameName, Identifier.same, this], hb.1⟩
  · intro d hd d' hb
    refine ⟨hb.comment, hb.variant, ?_, each_imp hb.fields ?_, hb.deleted⟩
    · rw [hb.name]; exact (hn.declarations d hd).2
    · intro f hf f' hb'
      obtain ⟨h1, h2⟩ := hn.fields d hd f hf
      exact ⟨hb'.comment, hb'.rule, by rw [hb'.name]; exact h1.2, typeBack_same hb'.type h2, hb'.index⟩

/-- C36 in general: for every source which parses, the formatted text of the schema parses, to the same schema; only
paragraphs of comments may change, to their filled lines joined by spaces. Conditions: names of types are the same after
conversion to Pascal case, and not keywords; other names likewise for snake case; filling makes no blank lines. -/
theorem C36_format_preserves {T : CharTable} (hT : T.Ascii) (hS : T.SpaceApart) (F : Nat → Str → Str) (src : Str)
    (toks : List Token) (s : Schema) (h1 : tokenize T src = .ok toks) (h2 : parse T toks = .ok s)
    (hn : NamesOk T (SnakeOk T) (PascalOk T) s) (hc : CommentsOk (Fillable T F) s) :
    ∃ toks' s', tokenize T (format T F s) = .ok toks' ∧ parse T toks' = .ok s' ∧
      SameSchema (refill T F marginWidth) (refill T F fieldWidth) s s' := by
  have hf := parsed_formattable (F := F) hT hS h1 h2 (namesOk_mono (N' := SnakePlain T) (M' := PascalPlain T) (fun _ h => h.1)
    (fun _ h => h.1) hn) hc
  obtain ⟨toks', s', g1, g2, g3⟩ := format_parses hT hS hf
    (fun i hi => (hn.imports i hi).imp id (fun h => h.2))
  exact ⟨toks', s', g1, g2, schemaBack_same g3 hn⟩

/-- Filling the paragraph and joining its lines gives the paragraph (lines are only broken at single spaces). -/
def FillKeeps (T : CharTable) (F : Nat → Str → Str) (w : Nat) (p : Str) : Prop :=
  Fillable T F w p ∧ refill T F w p = p

/-- C36: if moreover filling only breaks lines at spaces, the schema is the same including its comments. -/
theorem C36_format_preserves_all {T : CharTable} (hT : T.Ascii) (hS : T.SpaceApart) (F : Nat → Str → Str) (src : Str)
    (toks : List Token) (s : Schema) (h1 : tokenize T src = .ok toks) (h2 : parse T toks = .ok s)
    (hn : NamesOk T (SnakeOk T) (PascalOk T) s) (hc : CommentsOk (FillKeeps T F) s) :
    ∃ toks' s', tokenize T (format T F s) = .ok toks' ∧ parse T toks' = .ok s' ∧
      SameSchema (fun p => p) (fun p => p) s s' := by
  obtain ⟨toks', s', g1, g2, g3⟩ := C36_format_preserves hT hS F src toks s h1 h2 hn
    ⟨fun p hp => (hc.schema p hp).1, fun d hd p hp => (hc.declarations d hd p hp).1,
      fun d hd f hf p hp => (hc.fields d hd f hf p hp).1⟩
  have hmap : ∀ {w : Nat} {l : List Str}, (∀ p ∈ l, FillKeeps T F w p) → l.map (refill T F w) = l.map (fun p => p) :=
    fun h => List.map_congr_left (fun p hp => (h p hp).2)
  refine ⟨toks', s', g1, g2, ⟨g3.comment.trans (hmap hc.schema), g3.imports, each_imp g3.declarations ?_⟩⟩
  intro d hd d' h
  refine ⟨h.comment.trans (hmap (hc.declarations d hd)), h.variant, h.name, each_imp h.fields ?_, h.deleted⟩
  intro f hf f' h'
  exact ⟨h'.comment.trans (hmap (hc.fields d hd f hf)), h'.rule, h'.name, h'.type, h'.index⟩

/-- The condition on names of fields and imports holds of ASCII names which begin with a letter, unless the lower-case form is
a keyword. -/
theorem C36_names {T : CharTable} (hT : T.Ascii) (w : Str) (hw : LetterName w)
    (hk : ¬ IsKeyword (Identifier.ofStr T w).snakeCase) : SnakeOk T (Identifier.ofStr T w) := snake_plain hT hw hk

/-- The condition on names of types holds of ASCII names which begin with a letter, unless the Pascal-case form is a
keyword, or a word of the name begins with a digit. -/
theorem C36_type_names {T : CharTable} (hT : T.Ascii) (w : Str) (hw : LetterName w) (hd : NoDigitWord T w)
    (hk : ¬ IsKeyword ((Identifier.ofStr T w).pascalCase T)) : PascalOk T (Identifier.ofStr T w) := pascal_ok hT hw hd hk

/-! ## Idempotence -/

/-- The Pascal-case form of the name is an identifier (and not a keyword), and its own Pascal-case form. -/
def PascalStable (T : CharTable) (n : Identifier) : Prop :=
  PlainName T (n.pascalCase T) ∧ (Identifier.ofStr T (n.pascalCase T)).pascalCase T = n.pascalCase T

/-- Filling a filled paragraph again makes the same lines. -/
def FillStable (T : CharTable) (F : Nat → Str → Str) (w : Nat) (p : Str) : Prop :=
  Fillable T F w p ∧ strLines (F w (refill T F w p)) = strLines (F w p)

theorem sameName_snake {a b : Identifier} (h : SameName a b) : a.snakeCase = b.snakeCase := by
  simpa [SameName, Identifier.same] using h

theorem writeComment_stable {T : CharTable} {F : Nat → Str → Str} {ind : Str} {w : Nat} (hw : w = 79 - ind.length - 2) :
    ∀ ps : List Str, (∀ p ∈ ps, FillStable T F w p) → writeComment F ind (ps.map (refill T F w)) = writeComment F ind ps
  | [], _ => rfl
  | [p], h => by
    subst hw
    simp only [List.map_cons, List.map_nil, writeComment, writeParagraph]
    rw [(h p (by simp)).2]
  | p :: q :: ps, h => by
    have ih := writeComment_stable hw (q :: ps) (fun x hx => h x (by simp [hx]))
    subst hw
    simp only [List.map_cons, writeComment, writeParagraph] at ih ⊢
    rw [(h p (by simp)).2, ih]

theorem writeType_back {T : CharTable} {a b : TypeVariant} (h : TypeBack T a b) (hn : TypeNames (SnakeOk T) (PascalStable T) a) :
    writeType T b = writeType T a := by
  induction h with
  | array _ ih => simp only [writeType]; rw [ih hn]
  | bare => simp only [writeType]; exact hn.2.2
  | qualified => simp only [writeType]; rw [hn.2.2, ← sameName_snake (hn.1 _ rfl).2]
  | _ => rfl

theorem typeBack_unit {T : CharTable} {a b : TypeVariant} (h : TypeBack T a b) : b = .unit ↔ a = .unit := by
  cases h <;> simp

theorem writeField_back {T : CharTable} {F : Nat → Str → Str} {f f' : Field} (h : FieldBack T F f f') (hn : SnakeOk T f.name)
    (ht : TypeNames (SnakeOk T) (PascalStable T) f.type.variant) (hc : ∀ p ∈ f.comment, FillStable T F fieldWidth p) :
    writeField T F f' = writeField T F f := by
  unfold writeField
  rw [h.comment, writeComment_stable (w := fieldWidth) rfl _ hc, h.rule, h.name, h.index, ← sameName_snake hn.2,
    writeType_back h.type ht]
  simp only [typeBack_unit h.type]

theorem each_length_comment {T : CharTable} {F : Nat → Str → Str} {f f' : Field} (h : FieldBack T F f f') :
    f'.comment.isEmpty = f.comment.isEmpty := by
  rw [h.comment]
  cases f.comment <;> rfl

theorem writeFields_back {T : CharTable} {F : Nat → Str → Str} {fs fs' : List Field} (h : Each (FieldBack T F) fs fs')
    (hn : ∀ f ∈ fs, SnakeOk T f.name ∧ TypeNames (SnakeOk T) (PascalStable T) f.type.variant)
    (hc : ∀ f ∈ fs, ∀ p ∈ f.comment, FillStable T F fieldWidth p) : ∀ first previous,
    writeFields T F first previous fs' = writeFields T F first previous fs := by
  induction h with
  | nil => intro _ _; rfl
  | @cons f f' fs fs' h0 _ ih =>
    intro first previous
    rw [writeFields, writeFields, each_length_comment h0,
      writeField_back h0 (hn f (by simp)).1 (hn f (by simp)).2 (hc f (by simp)),
      ih (fun x hx => hn x (by simp [hx])) (fun x hx => hc x (by simp [hx]))]

theorem each_isEmpty {α β : Type} {R : α → β → Prop} {as : List α} {bs : List β} (h : Each R as bs) : bs.isEmpty = as.isEmpty := by
  cases h <;> rfl

theorem writeDeclarations_back {T : CharTable} {F : Nat → Str → Str} {ds ds' : List Declaration}
    (h : Each (DeclBack T F) ds ds') (hm : ∀ d ∈ ds, PascalStable T d.name)
    (hn : ∀ d ∈ ds, ∀ f ∈ d.fields, SnakeOk T f.name ∧ TypeNames (SnakeOk T) (PascalStable T) f.type.variant)
    (hc : ∀ d ∈ ds, ∀ p ∈ d.comment, FillStable T F marginWidth p)
    (hf : ∀ d ∈ ds, ∀ f ∈ d.fields, ∀ p ∈ f.comment, FillStable T F fieldWidth p) : ∀ skip,
    writeDeclarations T F skip ds' = writeDeclarations T F skip ds := by
  induction h with
  | nil => intro _; rfl
  | @cons d d' ds ds' h0 _ ih =>
    intro skip
    have e : writeDeclaration T F d' = writeDeclaration T F d := by
      unfold writeDeclaration writeDeleted
      rw [h0.comment, writeComment_stable (w := marginWidth) rfl _ (hc d (by simp)), h0.variant, h0.name,
        (hm d (by simp)).2, writeFields_back h0.fields (hn d (by simp)) (hf d (by simp)), h0.deleted, each_isEmpty h0.fields]
    rw [writeDeclarations, writeDeclarations, e, ih (fun x hx => hm x (by simp [hx])) (fun x hx => hn x (by simp [hx]))
      (fun x hx => hc x (by simp [hx])) (fun x hx => hf x (by simp [hx]))]

theorem writeImports_back {T : CharTable} {is is' : List (Identifier × Import)} (h : Each (ImportBack T) is is')
    (hn : ∀ i ∈ is, NamedAfterFile T i.1 i.2.path ∨ SnakeOk T i.1) :
    is'.flatMap (fun i => writeImport T i.1 i.2) = is.flatMap (fun i => writeImport T i.1 i.2) := by
  induction h with
  | nil => rfl
  | @cons i i' is is' h0 _ ih =>
    have hs := importBack_name h0 ((hn i (by simp)).imp id (fun h => h.2))
    have e : writeImport T i'.1 i'.2 = writeImport T i.1 i.2 := by
      have hiff : (fileStem i.2.path).map (fun stem => (Identifier.ofStr T stem).same i'.1) =
          (fileStem i.2.path).map (fun stem => (Identifier.ofStr T stem).same i.1) := by
        simp only [Identifier.same, hs]
      unfold writeImport
      rw [h0.1, hs]
      by_cases hb : (fileStem i.2.path).map (fun stem => (Identifier.ofStr T stem).same i.1) = some true
      · rw [if_pos hb, if_pos (hiff.trans hb)]
      · rw [if_neg hb, if_neg (fun h => hb (hiff.symm.trans h))]
    rw [List.flatMap_cons, List.flatMap_cons, e, ih (fun x hx => hn x (by simp [hx]))]

/-- C37: for every source which parses, formatting its schema, parsing the result and formatting again gives the same
text. Conditions: names are not keywords after conversion, and conversion is stable; filling is stable. -/
theorem C37_idempotent {T : CharTable} (hT : T.Ascii) (hS : T.SpaceApart) (F : Nat → Str → Str) (src : Str)
    (toks : List Token) (s : Schema) (h1 : tokenize T src = .ok toks) (h2 : parse T toks = .ok s)
    (hn : NamesOk T (SnakeOk T) (PascalStable T) s) (hc : CommentsOk (FillStable T F) s) :
    ∃ toks' s', tokenize T (format T F s) = .ok toks' ∧ parse T toks' = .ok s' ∧ format T F s' = format T F s := by
  have hf := parsed_formattable (F := F) hT hS h1 h2 (namesOk_mono (N' := SnakePlain T) (M' := PascalPlain T) (fun _ h => h.1)
    (fun _ h => h.1) hn) ⟨fun p hp => (hc.schema p hp).1, fun d hd p hp => (hc.declarations d hd p hp).1,
      fun d hd f hf p hp => (hc.fields d hd f hf p hp).1⟩
  obtain ⟨toks', s', g1, g2, g3⟩ := format_parses hT hS hf (fun i hi => (hn.imports i hi).imp id (fun h => h.2))
  refine ⟨toks', s', g1, g2, ?_⟩
  unfold format
  rw [g3.comment, writeComment_stable (w := marginWidth) rfl _ hc.schema, writeImports_back g3.imports hn.imports,
    each_isEmpty g3.imports, each_isEmpty g3.declarations,
    writeDeclarations_back g3.declarations hn.declarations hn.fields hc.declarations hc.fields]
  have : (s.comment.map (refill T F marginWidth)).isEmpty = s.comment.isEmpty := by cases s.comment <;> rfl
  rw [this]

/-- The condition of C37 on names of types holds of all ASCII names which begin with a letter, unless the Pascal-case
form is a keyword. -/
theorem C37_type_names {T : CharTable} (hT : T.Ascii) (w : Str) (hw : LetterName w)
    (hk : ¬ IsKeyword ((Identifier.ofStr T w).pascalCase T)) : PascalStable T (Identifier.ofStr T w) :=
  ⟨pascal_plain hT hw hk, pascal_stable hT hw⟩

/-- A filler which keeps a paragraph as it is also keeps the lines of the filled one. -/
theorem fillKeeps_stable {T : CharTable} {F : Nat → Str → Str} {w : Nat} {p : Str} (h : FillKeeps T F w p) :
    FillStable T F w p := ⟨h.1, by rw [h.2]⟩

/-- Filling keeps a paragraph if its lines have no white space around them, are not blank, and joined by spaces make up the
paragraph. -/
theorem C36_fill {T : CharTable} {F : Nat → Str → Str} {w : Nat} {p : Str} (ls : List Str) (h1 : strLines (F w p) = ls)
    (h2 : ls ≠ []) (h3 : ∀ l ∈ ls, trim T l = l ∧ l ≠ []) (h4 : joinWith [' '] ls = p) : FillKeeps T F w p := by
  refine ⟨⟨by rw [h1]; exact h2, fun l hl => ?_⟩, ?_⟩
  · rw [h1] at hl
    rw [(h3 l hl).1]; exact (h3 l hl).2
  · have : ls.map (trim T) = ls := by
      conv => rhs; rw [← List.map_id ls]
      exact List.map_congr_left (fun l hl => (h3 l hl).1)
    rw [refill, h1, this, h4]

/-- C37 under the conditions of C36. -/
theorem C37_idempotent_kept {T : CharTable} (hT : T.Ascii) (hS : T.SpaceApart) (F : Nat → Str → Str) (src : Str)
    (toks : List Token) (s : Schema) (h1 : tokenize T src = .ok toks) (h2 : parse T toks = .ok s)
    (hn : NamesOk T (SnakeOk T) (PascalStable T) s) (hc : CommentsOk (FillKeeps T F) s) :
    ∃ toks' s', tokenize T (format T F s) = .ok toks' ∧ parse T toks' = .ok s' ∧ format T F s' = format T F s :=
  C37_idempotent hT hS F src toks s h1 h2 hn ⟨fun p hp => fillKeeps_stable (hc.schema p hp),
    fun d hd p hp => fillKeeps_stable (hc.declarations d hd p hp),
    fun d hd f hf p hp => fillKeeps_stable (hc.fields d hd f hf p hp)⟩

/-! ## Concrete cases -/

/-- The schema of a source. -/
def schemaOf (src : String) : Schema :=
  match parse asciiTable (tokensOf src) with
  | .ok s => s
  | _ => ⟨[], [], []⟩

def parses (src : String) : Bool :=
  (match tokenize asciiTable src.toList with | .ok _ => true | .error _ => false) &&
    (match parse asciiTable (tokensOf src) with | .ok _ => true | _ => false)

theorem parses_ok {src : String} (h : parses src = true) :
    tokenize asciiTable src.toList = .ok (tokensOf src) ∧ parse asciiTable (tokensOf src) = .ok (schemaOf src) := by
  unfold parses at h
  rw [Bool.and_eq_true] at h
  refine ⟨tokensOf_ok _ h.1, ?_⟩
  unfold schemaOf
  split
  · rename_i h; exact h
  · rename_i hc
    cases hp : parse asciiTable (tokensOf src) with
    | ok s => exact absurd hp (hc s)
    | err _ => rw [hp] at h; exact absurd h.2 (by simp)
    | panic => rw [hp] at h; exact absurd h.2 (by simp)

theorem parses_not {src : String} (h1 : (match tokenize asciiTable src.toList with | .ok _ => true | .error _ => false) = true)
    (h : parses src = false) : ∀ s, parse asciiTable (tokensOf src) ≠ .ok s := by
  intro s hs
  unfold parses at h
  rw [h1, hs] at h
  cases h

/-- Lines kept as they are. -/
def keepLines : Nat → Str → Str := fun _ p => p

/-- Evaluation of `PlainName`. -/
def plainCheck (T : CharTable) (w : Str) : Bool :=
  (match w with
    | [] => false
    | c :: v => T.isAlphabetic c && v.all (fun d => T.isAlphanumeric d || d == '_')) &&
    keywordTable.all (fun kv => w != kv.1.toList)

theorem plainCheck_ok {T : CharTable} {w : Str} (h : plainCheck T w = true) : PlainName T w := by
  unfold plainCheck at h
  rw [Bool.and_eq_true] at h
  refine ⟨?_, ?_⟩
  · cases w with
    | nil => cases h.1
    | cons c v =>
      have h1 := h.1
      simp only [Bool.and_eq_true, List.all_eq_true, Bool.or_eq_true, beq_iff_eq] at h1
      exact ⟨c, v, rfl, h1.1, h1.2⟩
  · rintro ⟨k, v, hk, he⟩
    have := List.all_eq_true.mp h.2 _ hk
    simp [he] at this

def snakeCheck (T : CharTable) (n : Identifier) : Bool :=
  plainCheck T n.snakeCase && n.same (Identifier.ofStr T n.snakeCase)

def pascalCheck (T : CharTable) (n : Identifier) : Bool :=
  plainCheck T (n.pascalCase T) && n.same (Identifier.ofStr T (n.pascalCase T)) &&
    (Identifier.ofStr T (n.pascalCase T)).pascalCase T == n.pascalCase T

def typeCheck (T : CharTable) : TypeVariant → Bool
  | .array _ a => typeCheck T a
  | .custom (some i) n => snakeCheck T i && pascalCheck T n
  | .custom none n => pascalCheck T n
  | _ => true

/-- Evaluation of `NamesOk`. -/
def namesCheck (T : CharTable) (s : Schema) : Bool :=
  s.imports.all (fun i => (fileStem i.2.path).map (fun stem => (Identifier.ofStr T stem).same i.1) == some true ||
    snakeCheck T i.1) &&
  s.declarations.all (fun d => pascalCheck T d.name && d.fields.all (fun f => snakeCheck T f.name && typeCheck T f.type.variant))

theorem snakeCheck_ok {T : CharTable} {n : Identifier} (h : snakeCheck T n = true) : SnakeOk T n := by
  unfold snakeCheck at h
  rw [Bool.and_eq_true] at h
  exact ⟨plainCheck_ok h.1, h.2⟩

theorem pascalCheck_ok {T : CharTable} {n : Identifier} (h : pascalCheck T n = true) : PascalOk T n ∧ PascalStable T n := by
  unfold pascalCheck at h
  simp only [Bool.and_eq_true, beq_iff_eq] at h
  exact ⟨⟨plainCheck_ok h.1.1, h.1.2⟩, plainCheck_ok h.1.1, h.2⟩

theorem typeCheck_ok {T : CharTable} : ∀ {ty : TypeVariant}, typeCheck T ty = true →
    TypeNames (SnakeOk T) (fun n => PascalOk T n ∧ PascalStable T n) ty
  | .array _ a, h => typeCheck_ok (ty := a) h
  | .custom (some i) n, h => by
    rw [typeCheck, Bool.and_eq_true] at h
    exact ⟨fun m hm => by injection hm with hm; subst hm; exact snakeCheck_ok h.1, pascalCheck_ok h.2⟩
  | .custom none n, h => ⟨fun m hm => (by cases hm), pascalCheck_ok h⟩
  | .bool, _ => trivial
  | .bytes, _ => trivial
  | .f64, _ => trivial
  | .s64, _ => trivial
  | .string, _ => trivial
  | .u64, _ => trivial
  | .unit, _ => trivial

theorem namesCheck_ok {T : CharTable} {s : Schema} (h : namesCheck T s = true) :
    NamesOk T (SnakeOk T) (fun n => PascalOk T n ∧ PascalStable T n) s := by
  unfold namesCheck at h
  simp only [Bool.and_eq_true, List.all_eq_true, Bool.or_eq_true, beq_iff_eq] at h
  exact ⟨fun i hi => (h.1 i hi).imp (fun h => named_iff.mp h) snakeCheck_ok, fun d hd => pascalCheck_ok (h.2 d hd).1,
    fun d hd f hf => ⟨snakeCheck_ok ((h.2 d hd).2 f hf).1, typeCheck_ok ((h.2 d hd).2 f hf).2⟩⟩

/-- Evaluation of the condition on comments for `keepLines`. -/
def commentsCheck (T : CharTable) (s : Schema) : Bool :=
  let check := fun (p : Str) => strLines p == [p] && trim T p == p && !p.isEmpty
  s.comment.all check && s.declarations.all (fun d => d.comment.all check && d.fields.all (fun f => f.comment.all check))

theorem commentsCheck_ok {T : CharTable} {s : Schema} (h : commentsCheck T s = true) : CommentsOk (FillKeeps T keepLines) s := by
  have key : ∀ {w : Nat} {p : Str}, (strLines p == [p] && trim T p == p && !p.isEmpty) = true → FillKeeps T keepLines w p := by
    intro w p h
    simp only [Bool.and_eq_true, beq_iff_eq, Bool.not_eq_true', List.isEmpty_eq_false_iff] at h
    exact C36_fill [p] h.1.1 (by simp) (by simp [h.1.2, h.2]) rfl
  unfold commentsCheck at h
  simp only [Bool.and_eq_true (a := List.all _ _), List.all_eq_true] at h
  exact ⟨fun p hp => key (h.1 p hp), fun d hd p hp => key ((h.2 d hd).1 p hp), fun d hd f hf p hp => key ((h.2 d hd).2 f hf p hp)⟩

/-- An untidy source, with all features of the language. -/
def untidySource : String :=
  "# About\n#   this file.\n\nimport 'b_thing.t' as BThing import '../a.t' as other\n# A struct\n#\n# Really.\nstruct foo {\n  # A field\n  firstField: [other.bar] = 0 optional $y = 1\n  deleted 5 3\n}\nchoice Bar { asymmetric z: U64 = 0 \n w:[[Foo]]=10}\n"

/-- Its formatted text. -/
def tidySource : String :=
  "# About this file.\n\nimport 'b_thing.t'\nimport '../a.t' as other\n\n# A struct\n#\n# Really.\nstruct Foo {\n    # A field\n    first_field: [other.Bar] = 0\n\n    optional y = 1\n\n    deleted 3 5\n}\n\nchoice Bar {\n    asymmetric z: U64 = 0\n    w: [[Foo]] = 10\n}\n"

/-- The conditions of C36 and C37 hold of it. -/
example : (tokenize asciiTable untidySource.toList = .ok (tokensOf untidySource) ∧
    parse asciiTable (tokensOf untidySource) = .ok (schemaOf untidySource)) ∧
    NamesOk asciiTable (SnakeOk asciiTable) (fun n => PascalOk asciiTable n ∧ PascalStable asciiTable n) (schemaOf untidySource) ∧
    CommentsOk (FillKeeps asciiTable keepLines) (schemaOf untidySource) ∧
    format asciiTable keepLines (schemaOf untidySource) = tidySource.toList ∧
    format asciiTable keepLines (schemaOf tidySource) = tidySource.toList :=
  ⟨parses_ok (by decide +kernel), namesCheck_ok (by decide +kernel), commentsCheck_ok (by decide +kernel), by decide +kernel,
    by decide +kernel⟩

/-- C36 is false of fields with reserved names: `$struct` is a field's name, but formatting makes it `struct`, which no longer
parses. -/
theorem C36_keyword_witness : ∃ toks s, tokenize asciiTable "struct Foo {\n    $struct = 0\n}\n".toList = .ok toks ∧
    parse asciiTable toks = .ok s ∧ format asciiTable keepLines s = "struct Foo {\n    struct = 0\n}\n".toList ∧
    ∃ toks', tokenize asciiTable (format asciiTable keepLines s) = .ok toks' ∧ ∀ s', parse asciiTable toks' ≠ .ok s' := by
  have h := parses_ok (src := "struct Foo {\n    $struct = 0\n}\n") (by decide +kernel)
  have hf : format asciiTable keepLines (schemaOf "struct Foo {\n    $struct = 0\n}\n") =
    "struct Foo {\n    struct = 0\n}\n".toList := by decide +kernel
  refine ⟨_, _, h.1, h.2, hf, tokensOf "struct Foo {\n    struct = 0\n}\n", ?_, ?_⟩
  · rw [hf]; exact tokensOf_ok _ (by decide +kernel)
  · exact parses_not (by decide +kernel) (by decide +kernel)

/-- The variants of the types of all fields. -/
def fieldTypes (s : Schema) : List TypeVariant := s.declarations.flatMap (fun d => d.fields.map (fun f => f.type.variant))

/-- C36 is false of types whose names are reserved after conversion: a field of a user's type `string` becomes one of the
built-in type `String`. -/
theorem C36_type_witness :
    let src := "import 'a.t'\n\nstruct Foo {\n    x: string = 0\n}\n"
    let src' := "import 'a.t'\n\nstruct Foo {\n    x: String = 0\n}\n"
    parses src = true ∧ parses src' = true ∧ format asciiTable keepLines (schemaOf src) = src'.toList ∧
      fieldTypes (schemaOf src) = [.custom none (Identifier.ofStr asciiTable "string".toList)] ∧
      fieldTypes (schemaOf src') = [.string] := by
  decide +kernel

/-- C36 is false of types with a word that begins with a digit: `f_1` becomes `F1`, which is another name. -/
theorem C36_digit_witness :
    let src := "struct f_1 {\n}\n"
    let src' := "struct F1 {\n}\n"
    parses src = true ∧ parses src' = true ∧ format asciiTable keepLines (schemaOf src) = src'.toList ∧
      (schemaOf src).declarations.map (fun d => d.name.snakeCase) = ["f_1".toList] ∧
      (schemaOf src').declarations.map (fun d => d.name.snakeCase) = ["f1".toList] := by
  decide +kernel

end Typical
